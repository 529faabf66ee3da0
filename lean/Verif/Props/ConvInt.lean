import Verif.Props.ConvSecond
import Mathlib.Analysis.SpecialFunctions.ExpDeriv
import Mathlib.Analysis.Complex.ExponentialBounds

/-! # C152, C153, C154: the integrators follow the motion of the system -/

namespace Chords.Conv
open Set Chords.Integ

/-- The call returns a list of states and, if they meet `P`, the state number `i` is at most `b i` away from the state of the system at that instant. -/
def Near {X : Type} [NormedAddCommGroup X] (res : Except IErr (List X)) (P : List X → Prop) (y : ℕ → X) (b : ℕ → ℝ) : Prop :=
  ∃ xs, res = .ok xs ∧ (P xs → ∀ i z, xs[i]? = some z → ‖z - y i‖ ≤ b i)

/-- The control of the motion has the given values at the start and at the end of each interval; in the last one, both are the last value. -/
def Ends {U : Type} (us : List U) (h : ℝ) (w : ℕ → ℝ → U) : Prop := ∀ i u, us[i]? = some u → w i 0 = u ∧ w i h = us[i + 1]?.getD u

/-- All the states of the list are in a region. -/
def AllIn {X : Type} (S : Set X) (xs : List X) : Prop := ∀ z ∈ xs, z ∈ S

/-- For every two consecutive states, the point `c i z z'` is in a region. -/
def PairsIn {X : Type} (S : Set X) (c : ℕ → X → X → X) (xs : List X) : Prop :=
  ∀ i z z', xs[i]? = some z → xs[i + 1]? = some z' → c i z z' ∈ S

section
variable {X U : Type} [NormedAddCommGroup X] [NormedSpace ℝ X]

private theorem follows_seq {res : Except IErr (List X)} {x0 : X} {us : List U} {R : ℕ → X → X → U → U → X} (hf : Follows res x0 us R) :
    ∃ xs, res = .ok xs ∧ ∃ x : ℕ → X, x 0 = x0 ∧ (∀ i ≤ us.length, xs[i]? = some (x i)) ∧ (∀ i z, xs[i]? = some z → i ≤ us.length ∧ z = x i) ∧
      ∀ i < us.length, ∃ u, us[i]? = some u ∧ R i (x i) (x (i + 1)) u (us[i + 1]?.getD u) = 0 := by
  obtain ⟨xs, h1, h2, h3, h4⟩ := hf
  refine ⟨xs, h1, fun i => xs[i]?.getD x0, by simp [h3], ?_, ?_, ?_⟩
  · intro i hi
    simp only [List.getElem?_eq_getElem (show i < xs.length by omega), Option.getD_some]
  · intro i z hz
    refine ⟨?_, by simp [hz]⟩
    have := (List.getElem?_eq_some_iff.1 hz).1
    omega
  · intro i hi
    exact h4 i _ _ (by simp only [List.getElem?_eq_getElem (show i < xs.length by omega), Option.getD_some])
      (by simp only [List.getElem?_eq_getElem (show i + 1 < xs.length by omega), Option.getD_some])

variable {G : X → U → X} {S : Set X} {L K K' h : ℝ} {us : List U} {x0 : X} {res : Except IErr (List X)} {y : ℕ → X} {w : ℕ → ℝ → U} {D : ℕ → ℕ → ℝ → X}

theorem euler_close [AddCommGroup U] [Module ℝ U] (hf : Follows res x0 us (fun _ x x' u un => eulerRestr x x' u un G h))
    (hM : Moves G 2 h us.length y w D) (hw : Ends us h w) (hL0 : 0 ≤ L) (hL : LipIn G S L) (hh : 0 ≤ h)
    (hK : ∀ i < us.length, ∀ s ∈ Icc (0 : ℝ) h, ‖D i 2 s‖ ≤ K) (hy : ∀ i < us.length, y i ∈ S) :
    Near res (AllIn S) y fun i => Real.exp (L * (i * h)) * (‖x0 - y 0‖ + i * h * (K / 2) * h) := by
  obtain ⟨xs, h1, x, h0, hx, hz, hr⟩ := follows_seq hf
  refine ⟨xs, h1, fun hP i z hzi => ?_⟩
  obtain ⟨hi, rfl⟩ := hz i z hzi
  clear hz
  have := euler_near (x := x) (N := us.length) hM hL0 hL hh hK (fun i hi => hP _ (List.mem_of_getElem? (hx i (by omega)))) hy (fun i hi => ?_) i hi
  · rwa [h0] at this
  · obtain ⟨u, hu, hr⟩ := hr i hi
    exact ⟨_, by rw [(hw i u hu).1]; exact hr⟩

theorem trapz_close [AddCommGroup U] [Module ℝ U] (hf : Follows res x0 us (fun _ x x' u un => trapzRestr x x' u un G h))
    (hM : Moves G 3 h us.length y w D) (hw : Ends us h w) (hL0 : 0 ≤ L) (hL : LipIn G S L) (hh : 0 ≤ h) (hhL : h * L ≤ 1)
    (hK : ∀ i < us.length, ∀ s ∈ Icc (0 : ℝ) h, ‖D i 3 s‖ ≤ K) (hy : ∀ i ≤ us.length, y i ∈ S) :
    Near res (AllIn S) y fun i => Real.exp (2 * L * (i * h)) * (‖x0 - y 0‖ + i * h * K * h ^ 2) := by
  obtain ⟨xs, h1, x, h0, hx, hz, hr⟩ := follows_seq hf
  refine ⟨xs, h1, fun hP i z hzi => ?_⟩
  obtain ⟨hi, rfl⟩ := hz i z hzi
  clear hz
  have := trapz_near (x := x) (N := us.length) hM hL0 hL hh hhL hK (fun i hi => hP _ (List.mem_of_getElem? (hx i hi))) hy (fun i hi => ?_) i hi
  · rwa [h0] at this
  · obtain ⟨u, hu, hr⟩ := hr i hi
    rw [(hw i u hu).1, (hw i u hu).2]
    exact hr

theorem hs_close [AddCommGroup U] [Module ℝ U] {uc : ℕ → U → U → U} (hf : Follows res x0 us (fun i x x' u un => hsParabRestr x x' u un G h (uc i u un)))
    (hM : Moves G 5 h us.length y w D) (hw : Ends us h w) (hwc : ∀ i u, us[i]? = some u → w i (h / 2) = uc i u (us[i + 1]?.getD u))
    (hL0 : 0 ≤ L) (hL : LipIn G S L) (hh : 0 ≤ h) (hhL : h * L ≤ 1 / 2)
    (hK : ∀ i < us.length, ∀ s ∈ Icc (0 : ℝ) h, ‖D i 4 s‖ ≤ K ∧ ‖D i 5 s‖ ≤ K') (hy : ∀ i < us.length, ∀ s ∈ Icc (0 : ℝ) h, D i 0 s ∈ S) :
    Near res (fun xs => AllIn S xs ∧ PairsIn S (fun i z z' => hsMidpoint z z' (G z (w i 0)) (G z' (w i h)) h) xs) y
      fun i => Real.exp (4 * L * (i * h)) * (‖x0 - y 0‖ + i * h * (K' / 24 + L * K / 12) * h ^ 4) := by
  obtain ⟨xs, h1, x, h0, hx, hz, hr⟩ := follows_seq hf
  refine ⟨xs, h1, fun hP i z hzi => ?_⟩
  obtain ⟨hi, rfl⟩ := hz i z hzi
  clear hz
  have := hs_near (x := x) (N := us.length) hM hL0 hL hh hhL hK (fun i hi => hP.1 _ (List.mem_of_getElem? (hx i hi))) hy
    (fun i hi => hP.2 i _ _ (hx i (by omega)) (hx (i + 1) (by omega))) (fun i hi => ?_) i hi
  · rwa [h0] at this
  · obtain ⟨u, hu, hr⟩ := hr i hi
    rw [(hw i u hu).1, (hw i u hu).2, hwc i u hu]
    exact hr

theorem rk4_close [AddCommGroup U] [Module ℝ U] {uc : ℕ → U → U → U} {J : ℕ → ℝ → X →ₗ[ℝ] X} {B C K2 K3 K4 K5 : ℝ}
    (hf : Follows res x0 us (fun i x x' u un => x' - Chords.rk4Step x u un G h (uc i u un)))
    (hM : Moves G 5 h us.length y w D) (hw : Ends us h w) (hwc : ∀ i u, us[i]? = some u → w i (h / 2) = uc i u (us[i + 1]?.getD u))
    (hL0 : 0 ≤ L) (hL : LipIn G S L) (hB : 0 ≤ B) (hC : 0 ≤ C) (hJ : NearlyLinear G S h us.length w D L B C J) (hh : 0 ≤ h) (hh1 : h ≤ 1)
    (hhL : h * L ≤ 1 / 2)
    (hK : ∀ i < us.length, ∀ s ∈ Icc (0 : ℝ) h, ‖D i 2 s‖ ≤ K2 ∧ ‖D i 3 s‖ ≤ K3 ∧ ‖D i 4 s‖ ≤ K4 ∧ ‖D i 5 s‖ ≤ K5)
    (hy : ∀ i < us.length, StagesIn G S h (w i 0) (w i (h / 2)) (y i)) (hy' : ∀ i < us.length, D i 0 (h / 2) ∈ S) :
    Near res (fun xs => ∀ i < us.length, ∀ z, xs[i]? = some z → StagesIn G S h (w i 0) (w i (h / 2)) z) y fun i =>
      Real.exp (2 * L * (i * h)) * (‖x0 - y 0‖
        + i * h * (K5 / 48 + (L * K4 + L ^ 2 * (K3 + L * K2) + B * K2 ^ 2 + C * (K3 + L * K2) + B * (K3 + L * K2) ^ 2) / 6) * h ^ 4) := by
  obtain ⟨xs, h1, x, h0, hx, hz, hr⟩ := follows_seq hf
  refine ⟨xs, h1, fun hP i z hzi => ?_⟩
  obtain ⟨hi, rfl⟩ := hz i z hzi
  clear hz
  have := rk4_near (x := x) (N := us.length) hM hL0 hL hB hC hJ hh hh1 hhL hK (fun i hi => hP i hi _ (hx i (by omega))) hy hy' (fun i hi => ?_) i hi
  · rwa [h0] at this
  · obtain ⟨u, hu, hr⟩ := hr i hi
    rw [(hw i u hu).1, (hw i u hu).2, hwc i u hu]
    exact sub_eq_zero.1 hr

end

section
variable {V U : Type} [NormedAddCommGroup V] [NormedSpace ℝ V] {G : V × V → U → V × V} {S : Set (V × V)} {L K K' h : ℝ} {us : List U} {x0 : V × V}
  {res : Except IErr (List (V × V))} {y : ℕ → V × V} {w : ℕ → ℝ → U} {D : ℕ → ℕ → ℝ → V × V}

theorem trapzMod_close [AddCommGroup U] [Module ℝ U] (hf : Follows res x0 us (fun _ x x' u un => trapzModRestr x x' u un G h))
    (hM : Moves G 3 h us.length y w D) (hw : Ends us h w) (hG : IsSecondOrder G) (hL0 : 0 ≤ L) (hL : AccLipIn G S L) (hh : 0 ≤ h)
    (hhL : h * (1 + 2 * L) ≤ 1 / 2) (hK : ∀ i < us.length, ∀ s ∈ Icc (0 : ℝ) h, ‖D i 3 s‖ ≤ K) (hy : ∀ i ≤ us.length, y i ∈ S) :
    Near res (AllIn S) y fun i => Real.exp (4 * (1 + 2 * L) * (i * h)) * (‖x0 - y 0‖ + i * h * K * h ^ 2) := by
  obtain ⟨xs, h1, x, h0, hx, hz, hr⟩ := follows_seq hf
  refine ⟨xs, h1, fun hP i z hzi => ?_⟩
  obtain ⟨hi, rfl⟩ := hz i z hzi
  clear hz
  have := trapzMod_near (x := x) (N := us.length) hM hG hL0 hL hh hhL hK (fun i hi => hP _ (List.mem_of_getElem? (hx i hi))) hy (fun i hi => ?_) i hi
  · rwa [h0] at this
  · obtain ⟨u, hu, hr⟩ := hr i hi
    rw [(hw i u hu).1, (hw i u hu).2]
    exact hr

theorem hsMod_close [AddCommGroup U] [Module ℝ U] {uc : ℕ → U → U → U}
    (hf : Follows res x0 us (fun i x x' u un => hsModParabRestr x x' u un G h (uc i u un)))
    (hM : Moves G 5 h us.length y w D) (hw : Ends us h w) (hwc : ∀ i u, us[i]? = some u → w i (h / 2) = uc i u (us[i + 1]?.getD u))
    (hG : IsSecondOrder G) (hL0 : 0 ≤ L) (hL : AccLipIn G S L) (hh : 0 ≤ h) (hhL : h * (1 + 2 * L) ≤ 1 / 2)
    (hK : ∀ i < us.length, ∀ s ∈ Icc (0 : ℝ) h, ‖D i 4 s‖ ≤ K ∧ ‖D i 5 s‖ ≤ K') (hy : ∀ i < us.length, ∀ s ∈ Icc (0 : ℝ) h, D i 0 s ∈ S) :
    Near res (fun xs => AllIn S xs ∧ PairsIn S (fun i z z' => hsModXc z z' (G z (w i 0)).2 (G z' (w i h)).2 h) xs) y
      fun i => Real.exp (4 * (1 + 2 * L) * (i * h)) * (‖x0 - y 0‖ + i * h * ((K + K') / 24 + L * K / 12) * h ^ 4) := by
  obtain ⟨xs, h1, x, h0, hx, hz, hr⟩ := follows_seq hf
  refine ⟨xs, h1, fun hP i z hzi => ?_⟩
  obtain ⟨hi, rfl⟩ := hz i z hzi
  clear hz
  have := hsMod_near (x := x) (N := us.length) hM hG hL0 hL hh hhL hK (fun i hi => hP.1 _ (List.mem_of_getElem? (hx i hi))) hy
    (fun i hi => hP.2 i _ _ (hx i (by omega)) (hx (i + 1) (by omega))) (fun i hi => ?_) i hi
  · rwa [h0] at this
  · obtain ⟨u, hu, hr⟩ := hr i hi
    rw [(hw i u hu).1, (hw i u hu).2, hwc i u hu]
    exact hr

theorem hsj_close [AddCommGroup U] [Module ℝ U] {uc : ℕ → U → U → U}
    (hf : Follows res x0 us (fun i x x' u un => hsjParabRestr x x' u un G h (uc i u un)))
    (hM : Moves G 4 h us.length y w D) (hw : Ends us h w) (hwc : ∀ i u, us[i]? = some u → w i (2 * h / 5) = uc i u (us[i + 1]?.getD u))
    (hG : IsSecondOrder G) (hL0 : 0 ≤ L) (hL : AccLipIn G S L) (hh : 0 ≤ h) (hhL : h * (1 + 2 * L) ≤ 1 / 2)
    (hK : ∀ i < us.length, ∀ s ∈ Icc (0 : ℝ) h, ‖D i 4 s‖ ≤ K) (hy : ∀ i < us.length, ∀ s ∈ Icc (0 : ℝ) h, D i 0 s ∈ S) :
    Near res (fun xs => AllIn S xs ∧ PairsIn S (fun i z z' => hsjXc z z' (G z (w i 0)).2 (G z' (w i h)).2 h) xs) y
      fun i => Real.exp (4 * (1 + 2 * L) * (i * h)) * (‖x0 - y 0‖ + i * h * (K / 2) * h ^ 3) := by
  obtain ⟨xs, h1, x, h0, hx, hz, hr⟩ := follows_seq hf
  refine ⟨xs, h1, fun hP i z hzi => ?_⟩
  obtain ⟨hi, rfl⟩ := hz i z hzi
  clear hz
  have := hsj_near (x := x) (N := us.length) hM hG hL0 hL hh hhL hK (fun i hi => hP.1 _ (List.mem_of_getElem? (hx i hi))) hy
    (fun i hi => hP.2 i _ _ (hx i (by omega)) (hx (i + 1) (by omega))) (fun i hi => ?_) i hi
  · rwa [h0] at this
  · obtain ⟨u, hu, hr⟩ := hr i hi
    rw [(hw i u hu).1, (hw i u hu).2, hwc i u hu]
    exact hr

end

section
variable {X : Type} [NormedAddCommGroup X] [NormedSpace ℝ X]

/-! ### C152 -/

/-- C152, `integrate_euler`, one control for each step: the error is of order one. -/
theorem C152_euler_tape (F : DynF X) (G : X → ℝ → X) (hF : ∀ x a, F x (.num a) = .ok (G x a)) (h : ℝ) (n : ℕ)
    (x : X0Arr X) (x0 : X) (hx : x = .flat x0 ∨ x = .line x0) (us : List ℝ)
    (hn : n = 2 ∨ F x0 (.row us.length us.get) = .error .typeError)
    (y : ℕ → X) (w : ℕ → ℝ → ℝ) (D : ℕ → ℕ → ℝ → X) (S : Set X) (L K : ℝ)
    (hM : Moves G 2 h us.length y w D) (hw : Ends us h w)
    (hL0 : 0 ≤ L) (hL : LipIn G S L) (hh : 0 ≤ h)
    (hK : ∀ i < us.length, ∀ s ∈ Icc (0 : ℝ) h, ‖D i 2 s‖ ≤ K) (hy : ∀ i < us.length, y i ∈ S) :
    Near (integrateEuler n x (.vec us) F h) (AllIn S) y
      fun i => Real.exp (L * (i * h)) * (‖x0 - y 0‖ + i * h * (K / 2) * h) :=
  euler_close (C11_euler_tape F G hF h n x x0 hx us hn) hM hw hL0 hL hh hK hy

/-- C152, `integrate_trapz`, one control for each step: the error is of order two. -/
theorem C152_trapz_tape (F : DynF X) (G : X → ℝ → X) (hF : ∀ x a, F x (.num a) = .ok (G x a)) (h : ℝ) (n : ℕ)
    (x : X0Arr X) (x0 : X) (hx : x = .flat x0 ∨ x = .line x0) (us : List ℝ) (hne : us ≠ [])
    (hn : n = 2 ∨ F x0 (.row us.length us.get) = .error .typeError) (root : Root X) (hroot : Honest root)
    (hsol : ∀ x u un g, ∃ y, root (fun xn => trapzResid F h xn x (.num u) (.num un)) g = .ok (y, true))
    (y : ℕ → X) (w : ℕ → ℝ → ℝ) (D : ℕ → ℕ → ℝ → X) (S : Set X) (L K : ℝ)
    (hM : Moves G 3 h us.length y w D) (hw : Ends us h w)
    (hL0 : 0 ≤ L) (hL : LipIn G S L) (hh : 0 ≤ h) (hhL : h * L ≤ 1)
    (hK : ∀ i < us.length, ∀ s ∈ Icc (0 : ℝ) h, ‖D i 3 s‖ ≤ K) (hy : ∀ i ≤ us.length, y i ∈ S) :
    Near (integrateImplicit (trapzResid F h) root n x (.vec us) F h) (AllIn S) y
      fun i => Real.exp (2 * L * (i * h)) * (‖x0 - y 0‖ + i * h * K * h ^ 2) :=
  trapz_close ((C75_first_tape F G hF h n x x0 hx us hne hn root hroot).1 hsol) hM hw hL0 hL hh hhL hK hy

/-- C152, `integrate_hs`, one control for each step: the error is of order four. -/
theorem C152_hs_tape (F : DynF X) (G : X → ℝ → X) (hF : ∀ x a, F x (.num a) = .ok (G x a)) (h : ℝ) (n : ℕ)
    (x : X0Arr X) (x0 : X) (hx : x = .flat x0 ∨ x = .line x0) (us : List ℝ) (hne : us ≠ [])
    (hn : n = 2 ∨ F x0 (.row us.length us.get) = .error .typeError) (root : Root X) (hroot : Honest root)
    (hsol : ∀ x u un g, ∃ y, root (fun xn => hsResid F h xn x (.num u) (.num un)) g = .ok (y, true))
    (y : ℕ → X) (w : ℕ → ℝ → ℝ) (D : ℕ → ℕ → ℝ → X) (S : Set X) (L K K' : ℝ)
    (hM : Moves G 5 h us.length y w D) (hw : Ends us h w)
    (hwc : ∀ i u, us[i]? = some u → w i (h / 2) = (1 / 2 : ℝ) • (u + us[i + 1]?.getD u))
    (hL0 : 0 ≤ L) (hL : LipIn G S L) (hh : 0 ≤ h) (hhL : h * L ≤ 1 / 2)
    (hK : ∀ i < us.length, ∀ s ∈ Icc (0 : ℝ) h, ‖D i 4 s‖ ≤ K ∧ ‖D i 5 s‖ ≤ K') (hy : ∀ i < us.length, ∀ s ∈ Icc (0 : ℝ) h, D i 0 s ∈ S) :
    Near (integrateImplicit (hsResid F h) root n x (.vec us) F h) (fun xs => AllIn S xs ∧ PairsIn S (fun i z z' => hsMidpoint z z' (G z (w i 0)) (G z' (w i h)) h) xs) y
      fun i => Real.exp (4 * L * (i * h)) * (‖x0 - y 0‖ + i * h * (K' / 24 + L * K / 12) * h ^ 4) :=
  hs_close (uc := fun _ u un => (1 / 2 : ℝ) • (u + un)) ((C75_first_tape F G hF h n x x0 hx us hne hn root hroot).2 hsol)
    hM hw hwc hL0 hL hh hhL hK hy

/-- C152, `integrate_hs_parab`, one control for each step, and one for the middle of each but the last: the error is of order four. -/
theorem C152_hs_parab_tape (F : DynF X) (G : X → ℝ → X) (hF : ∀ x a, F x (.num a) = .ok (G x a)) (h : ℝ) (n : ℕ)
    (x : X0Arr X) (x0 : X) (hx : x = .flat x0 ∨ x = .line x0) (us ucs : List ℝ) (hne : us ≠ []) (hucs : ucs.length + 1 = us.length)
    (hn : n = 2 ∨ F x0 (.row us.length us.get) = .error .typeError) (root : Root X) (hroot : Honest root)
    (hsol : ∀ uc x u un g, ∃ y, root (fun xn => hsParabResid F h (.num uc) xn x (.num u) (.num un)) g = .ok (y, true))
    (y : ℕ → X) (w : ℕ → ℝ → ℝ) (D : ℕ → ℕ → ℝ → X) (S : Set X) (L K K' : ℝ)
    (hM : Moves G 5 h us.length y w D) (hw : Ends us h w)
    (hwc : ∀ i u, us[i]? = some u → w i (h / 2) = ucs[i]?.getD u)
    (hL0 : 0 ≤ L) (hL : LipIn G S L) (hh : 0 ≤ h) (hhL : h * L ≤ 1 / 2)
    (hK : ∀ i < us.length, ∀ s ∈ Icc (0 : ℝ) h, ‖D i 4 s‖ ≤ K ∧ ‖D i 5 s‖ ≤ K') (hy : ∀ i < us.length, ∀ s ∈ Icc (0 : ℝ) h, D i 0 s ∈ S) :
    Near (integrateParab (hsParabResid F h) (hsResid F h) root n x (.vec us) F h (some (ucs.map (.num)))) (fun xs => AllIn S xs ∧ PairsIn S (fun i z z' => hsMidpoint z z' (G z (w i 0)) (G z' (w i h)) h) xs) y
      fun i => Real.exp (4 * L * (i * h)) * (‖x0 - y 0‖ + i * h * (K' / 24 + L * K / 12) * h ^ 4) :=
  hs_close (uc := fun i u _ => ucs[i]?.getD u) (C75_hs_parab_tape F G hF h n x x0 hx us ucs hne hucs hn root hroot hsol).1
    hM hw hwc hL0 hL hh hhL hK hy

/-- C152, `integrate_euler`, one row of controls for each step: the error is of order one. -/
theorem C152_euler_table (m : ℕ) (F : DynF X) (G : X → (Fin m → ℝ) → X) (hF : ∀ x c, F x (.row m c) = .ok (G x c)) (h : ℝ) (n : ℕ)
    (x : X0Arr X) (x0 : X) (hx : x = .flat x0 ∨ x = .line x0) (us : List (Fin m → ℝ))
    (hm : us.length ≠ 1 ∨ m = 1)
    (y : ℕ → X) (w : ℕ → ℝ → (Fin m → ℝ)) (D : ℕ → ℕ → ℝ → X) (S : Set X) (L K : ℝ)
    (hM : Moves G 2 h us.length y w D) (hw : Ends us h w)
    (hL0 : 0 ≤ L) (hL : LipIn G S L) (hh : 0 ≤ h)
    (hK : ∀ i < us.length, ∀ s ∈ Icc (0 : ℝ) h, ‖D i 2 s‖ ≤ K) (hy : ∀ i < us.length, y i ∈ S) :
    Near (integrateEuler n x (.mat m us) F h) (AllIn S) y
      fun i => Real.exp (L * (i * h)) * (‖x0 - y 0‖ + i * h * (K / 2) * h) :=
  euler_close (C11_euler_table m F G hF h n x x0 hx us hm) hM hw hL0 hL hh hK hy

/-- C152, `integrate_trapz`, one row of controls for each step: the error is of order two. -/
theorem C152_trapz_table (m : ℕ) (F : DynF X) (G : X → (Fin m → ℝ) → X) (hF : ∀ x c, F x (.row m c) = .ok (G x c)) (h : ℝ) (n : ℕ)
    (x : X0Arr X) (x0 : X) (hx : x = .flat x0 ∨ x = .line x0) (us : List (Fin m → ℝ)) (hne : us ≠ [])
    (hm : us.length ≠ 1 ∨ m = 1) (root : Root X) (hroot : Honest root)
    (hsol : ∀ x u un g, ∃ y, root (fun xn => trapzResid F h xn x (.row m u) (.row m un)) g = .ok (y, true))
    (y : ℕ → X) (w : ℕ → ℝ → (Fin m → ℝ)) (D : ℕ → ℕ → ℝ → X) (S : Set X) (L K : ℝ)
    (hM : Moves G 3 h us.length y w D) (hw : Ends us h w)
    (hL0 : 0 ≤ L) (hL : LipIn G S L) (hh : 0 ≤ h) (hhL : h * L ≤ 1)
    (hK : ∀ i < us.length, ∀ s ∈ Icc (0 : ℝ) h, ‖D i 3 s‖ ≤ K) (hy : ∀ i ≤ us.length, y i ∈ S) :
    Near (integrateImplicit (trapzResid F h) root n x (.mat m us) F h) (AllIn S) y
      fun i => Real.exp (2 * L * (i * h)) * (‖x0 - y 0‖ + i * h * K * h ^ 2) :=
  trapz_close ((C75_first_table m F G hF h n x x0 hx us hne hm root hroot).1 hsol) hM hw hL0 hL hh hhL hK hy

/-- C152, `integrate_hs`, one row of controls for each step: the error is of order four. -/
theorem C152_hs_table (m : ℕ) (F : DynF X) (G : X → (Fin m → ℝ) → X) (hF : ∀ x c, F x (.row m c) = .ok (G x c)) (h : ℝ) (n : ℕ)
    (x : X0Arr X) (x0 : X) (hx : x = .flat x0 ∨ x = .line x0) (us : List (Fin m → ℝ)) (hne : us ≠ [])
    (hm : us.length ≠ 1 ∨ m = 1) (root : Root X) (hroot : Honest root)
    (hsol : ∀ x u un g, ∃ y, root (fun xn => hsResid F h xn x (.row m u) (.row m un)) g = .ok (y, true))
    (y : ℕ → X) (w : ℕ → ℝ → (Fin m → ℝ)) (D : ℕ → ℕ → ℝ → X) (S : Set X) (L K K' : ℝ)
    (hM : Moves G 5 h us.length y w D) (hw : Ends us h w)
    (hwc : ∀ i u, us[i]? = some u → w i (h / 2) = (1 / 2 : ℝ) • (u + us[i + 1]?.getD u))
    (hL0 : 0 ≤ L) (hL : LipIn G S L) (hh : 0 ≤ h) (hhL : h * L ≤ 1 / 2)
    (hK : ∀ i < us.length, ∀ s ∈ Icc (0 : ℝ) h, ‖D i 4 s‖ ≤ K ∧ ‖D i 5 s‖ ≤ K') (hy : ∀ i < us.length, ∀ s ∈ Icc (0 : ℝ) h, D i 0 s ∈ S) :
    Near (integrateImplicit (hsResid F h) root n x (.mat m us) F h) (fun xs => AllIn S xs ∧ PairsIn S (fun i z z' => hsMidpoint z z' (G z (w i 0)) (G z' (w i h)) h) xs) y
      fun i => Real.exp (4 * L * (i * h)) * (‖x0 - y 0‖ + i * h * (K' / 24 + L * K / 12) * h ^ 4) :=
  hs_close (uc := fun _ u un => (1 / 2 : ℝ) • (u + un)) ((C75_first_table m F G hF h n x x0 hx us hne hm root hroot).2 hsol)
    hM hw hwc hL0 hL hh hhL hK hy

/-- C152, `integrate_hs_parab`, one row of controls for each step, and one for the middle of each but the last: the error is of order four. -/
theorem C152_hs_parab_table (m : ℕ) (F : DynF X) (G : X → (Fin m → ℝ) → X) (hF : ∀ x c, F x (.row m c) = .ok (G x c)) (h : ℝ) (n : ℕ)
    (x : X0Arr X) (x0 : X) (hx : x = .flat x0 ∨ x = .line x0) (us ucs : List (Fin m → ℝ)) (hne : us ≠ []) (hucs : ucs.length + 1 = us.length)
    (hm : us.length ≠ 1 ∨ m = 1) (root : Root X) (hroot : Honest root)
    (hsol : ∀ uc x u un g, ∃ y, root (fun xn => hsParabResid F h (.row m uc) xn x (.row m u) (.row m un)) g = .ok (y, true))
    (y : ℕ → X) (w : ℕ → ℝ → (Fin m → ℝ)) (D : ℕ → ℕ → ℝ → X) (S : Set X) (L K K' : ℝ)
    (hM : Moves G 5 h us.length y w D) (hw : Ends us h w)
    (hwc : ∀ i u, us[i]? = some u → w i (h / 2) = ucs[i]?.getD u)
    (hL0 : 0 ≤ L) (hL : LipIn G S L) (hh : 0 ≤ h) (hhL : h * L ≤ 1 / 2)
    (hK : ∀ i < us.length, ∀ s ∈ Icc (0 : ℝ) h, ‖D i 4 s‖ ≤ K ∧ ‖D i 5 s‖ ≤ K') (hy : ∀ i < us.length, ∀ s ∈ Icc (0 : ℝ) h, D i 0 s ∈ S) :
    Near (integrateParab (hsParabResid F h) (hsResid F h) root n x (.mat m us) F h (some (ucs.map (.row m)))) (fun xs => AllIn S xs ∧ PairsIn S (fun i z z' => hsMidpoint z z' (G z (w i 0)) (G z' (w i h)) h) xs) y
      fun i => Real.exp (4 * L * (i * h)) * (‖x0 - y 0‖ + i * h * (K' / 24 + L * K / 12) * h ^ 4) :=
  hs_close (uc := fun i u _ => ucs[i]?.getD u) (C75_hs_parab_table m F G hF h n x x0 hx us ucs hne hucs hm root hroot hsol)
    hM hw hwc hL0 hL hh hhL hK hy

/-! ### C153 -/

/-- C153, `integrate_rk4`, one control for each step: the error is of order four. -/
theorem C153_rk4_tape (F : DynF X) (G : X → ℝ → X) (hF : ∀ x a, F x (.num a) = .ok (G x a)) (h : ℝ) (n : ℕ)
    (x : X0Arr X) (x0 : X) (hx : x = .flat x0 ∨ x = .line x0) (us : List ℝ) (hne : us ≠ [])
    (hn : n = 2 ∨ F x0 (.row us.length us.get) = .error .typeError)
    (y : ℕ → X) (w : ℕ → ℝ → ℝ) (D : ℕ → ℕ → ℝ → X) (S : Set X) (L B C K2 K3 K4 K5 : ℝ) (J : ℕ → ℝ → X →ₗ[ℝ] X)
    (hM : Moves G 5 h us.length y w D) (hw : Ends us h w)
    (hwc : ∀ i u, us[i]? = some u → w i (h / 2) = (1 / 2 : ℝ) • (u + us[i + 1]?.getD u))
    (hL0 : 0 ≤ L) (hL : LipIn G S L) (hB : 0 ≤ B) (hC : 0 ≤ C) (hJ : NearlyLinear G S h us.length w D L B C J) (hh : 0 ≤ h) (hh1 : h ≤ 1)
    (hhL : h * L ≤ 1 / 2)
    (hK : ∀ i < us.length, ∀ s ∈ Icc (0 : ℝ) h, ‖D i 2 s‖ ≤ K2 ∧ ‖D i 3 s‖ ≤ K3 ∧ ‖D i 4 s‖ ≤ K4 ∧ ‖D i 5 s‖ ≤ K5) 
    (hy : ∀ i < us.length, StagesIn G S h (w i 0) (w i (h / 2)) (y i)) (hy' : ∀ i < us.length, D i 0 (h / 2) ∈ S) :
    Near (integrateRk4 n x (.vec us) F h none) (fun xs => ∀ i < us.length, ∀ z, xs[i]? = some z → StagesIn G S h (w i 0) (w i (h / 2)) z) y
      fun i => Real.exp (2 * L * (i * h)) * (‖x0 - y 0‖
        + i * h * (K5 / 48 + (L * K4 + L ^ 2 * (K3 + L * K2) + B * K2 ^ 2 + C * (K3 + L * K2) + B * (K3 + L * K2) ^ 2) / 6) * h ^ 4) :=
  rk4_close (uc := fun _ u un => (1 / 2 : ℝ) • (u + un)) (C11_rk4_tape F G hF h n x x0 hx us hne hn)
    hM hw hwc hL0 hL hB hC hJ hh hh1 hhL hK hy hy'

/-- C153, `integrate_rk4`, with one more control for the middle of each step but the last: the error is of order four. -/
theorem C153_rk4_given (F : DynF X) (G : X → ℝ → X) (hF : ∀ x a, F x (.num a) = .ok (G x a)) (h : ℝ) (n : ℕ)
    (x : X0Arr X) (x0 : X) (hx : x = .flat x0 ∨ x = .line x0) (us ucs : List ℝ) (hne : us ≠ []) (hucs : ucs.length + 1 = us.length)
    (hn : n = 2 ∨ F x0 (.row us.length us.get) = .error .typeError)
    (y : ℕ → X) (w : ℕ → ℝ → ℝ) (D : ℕ → ℕ → ℝ → X) (S : Set X) (L B C K2 K3 K4 K5 : ℝ) (J : ℕ → ℝ → X →ₗ[ℝ] X)
    (hM : Moves G 5 h us.length y w D) (hw : Ends us h w)
    (hwc : ∀ i u, us[i]? = some u → w i (h / 2) = ucs[i]?.getD u)
    (hL0 : 0 ≤ L) (hL : LipIn G S L) (hB : 0 ≤ B) (hC : 0 ≤ C) (hJ : NearlyLinear G S h us.length w D L B C J) (hh : 0 ≤ h) (hh1 : h ≤ 1)
    (hhL : h * L ≤ 1 / 2)
    (hK : ∀ i < us.length, ∀ s ∈ Icc (0 : ℝ) h, ‖D i 2 s‖ ≤ K2 ∧ ‖D i 3 s‖ ≤ K3 ∧ ‖D i 4 s‖ ≤ K4 ∧ ‖D i 5 s‖ ≤ K5) 
    (hy : ∀ i < us.length, StagesIn G S h (w i 0) (w i (h / 2)) (y i)) (hy' : ∀ i < us.length, D i 0 (h / 2) ∈ S) :
    Near (integrateRk4 n x (.vec us) F h (some (ucs.map .num))) (fun xs => ∀ i < us.length, ∀ z, xs[i]? = some z → StagesIn G S h (w i 0) (w i (h / 2)) z) y
      fun i => Real.exp (2 * L * (i * h)) * (‖x0 - y 0‖
        + i * h * (K5 / 48 + (L * K4 + L ^ 2 * (K3 + L * K2) + B * K2 ^ 2 + C * (K3 + L * K2) + B * (K3 + L * K2) ^ 2) / 6) * h ^ 4) :=
  rk4_close (uc := fun i u _ => ucs[i]?.getD u) (C11_rk4_given F G hF h n x x0 hx us ucs hne hucs hn)
    hM hw hwc hL0 hL hB hC hJ hh hh1 hhL hK hy hy'

/-- C153, `integrate_rk4`, one row of controls for each step and one more for the middle of each step but the last: the error is of order four. -/
theorem C153_rk4_given_table (m : ℕ) (F : DynF X) (G : X → (Fin m → ℝ) → X) (hF : ∀ x c, F x (.row m c) = .ok (G x c)) (h : ℝ) (n : ℕ)
    (x : X0Arr X) (x0 : X) (hx : x = .flat x0 ∨ x = .line x0) (us ucs : List (Fin m → ℝ)) (hne : us ≠ []) (hucs : ucs.length + 1 = us.length)
    (hm : us.length ≠ 1 ∨ m = 1)
    (y : ℕ → X) (w : ℕ → ℝ → (Fin m → ℝ)) (D : ℕ → ℕ → ℝ → X) (S : Set X) (L B C K2 K3 K4 K5 : ℝ) (J : ℕ → ℝ → X →ₗ[ℝ] X)
    (hM : Moves G 5 h us.length y w D) (hw : Ends us h w)
    (hwc : ∀ i u, us[i]? = some u → w i (h / 2) = ucs[i]?.getD u)
    (hL0 : 0 ≤ L) (hL : LipIn G S L) (hB : 0 ≤ B) (hC : 0 ≤ C) (hJ : NearlyLinear G S h us.length w D L B C J) (hh : 0 ≤ h) (hh1 : h ≤ 1)
    (hhL : h * L ≤ 1 / 2)
    (hK : ∀ i < us.length, ∀ s ∈ Icc (0 : ℝ) h, ‖D i 2 s‖ ≤ K2 ∧ ‖D i 3 s‖ ≤ K3 ∧ ‖D i 4 s‖ ≤ K4 ∧ ‖D i 5 s‖ ≤ K5) 
    (hy : ∀ i < us.length, StagesIn G S h (w i 0) (w i (h / 2)) (y i)) (hy' : ∀ i < us.length, D i 0 (h / 2) ∈ S) :
    Near (integrateRk4 n x (.mat m us) F h (some (ucs.map (.row m)))) (fun xs => ∀ i < us.length, ∀ z, xs[i]? = some z → StagesIn G S h (w i 0) (w i (h / 2)) z) y
      fun i => Real.exp (2 * L * (i * h)) * (‖x0 - y 0‖
        + i * h * (K5 / 48 + (L * K4 + L ^ 2 * (K3 + L * K2) + B * K2 ^ 2 + C * (K3 + L * K2) + B * (K3 + L * K2) ^ 2) / 6) * h ^ 4) :=
  rk4_close (uc := fun i u _ => ucs[i]?.getD u) (C11_rk4_given_table m F G hF h n x x0 hx us ucs hne hucs hm)
    hM hw hwc hL0 hL hB hC hJ hh hh1 hhL hK hy hy'

/-- C153, `integrate_rk4`, one row of controls for each step: the error is of order four. -/
theorem C153_rk4_table (m : ℕ) (F : DynF X) (G : X → (Fin m → ℝ) → X) (hF : ∀ x c, F x (.row m c) = .ok (G x c)) (h : ℝ) (n : ℕ)
    (x : X0Arr X) (x0 : X) (hx : x = .flat x0 ∨ x = .line x0) (us : List (Fin m → ℝ)) (hne : us ≠ [])
    (hm : us.length ≠ 1 ∨ m = 1)
    (y : ℕ → X) (w : ℕ → ℝ → (Fin m → ℝ)) (D : ℕ → ℕ → ℝ → X) (S : Set X) (L B C K2 K3 K4 K5 : ℝ) (J : ℕ → ℝ → X →ₗ[ℝ] X)
    (hM : Moves G 5 h us.length y w D) (hw : Ends us h w)
    (hwc : ∀ i u, us[i]? = some u → w i (h / 2) = (1 / 2 : ℝ) • (u + us[i + 1]?.getD u))
    (hL0 : 0 ≤ L) (hL : LipIn G S L) (hB : 0 ≤ B) (hC : 0 ≤ C) (hJ : NearlyLinear G S h us.length w D L B C J) (hh : 0 ≤ h) (hh1 : h ≤ 1)
    (hhL : h * L ≤ 1 / 2)
    (hK : ∀ i < us.length, ∀ s ∈ Icc (0 : ℝ) h, ‖D i 2 s‖ ≤ K2 ∧ ‖D i 3 s‖ ≤ K3 ∧ ‖D i 4 s‖ ≤ K4 ∧ ‖D i 5 s‖ ≤ K5) 
    (hy : ∀ i < us.length, StagesIn G S h (w i 0) (w i (h / 2)) (y i)) (hy' : ∀ i < us.length, D i 0 (h / 2) ∈ S) :
    Near (integrateRk4 n x (.mat m us) F h none) (fun xs => ∀ i < us.length, ∀ z, xs[i]? = some z → StagesIn G S h (w i 0) (w i (h / 2)) z) y
      fun i => Real.exp (2 * L * (i * h)) * (‖x0 - y 0‖
        + i * h * (K5 / 48 + (L * K4 + L ^ 2 * (K3 + L * K2) + B * K2 ^ 2 + C * (K3 + L * K2) + B * (K3 + L * K2) ^ 2) / 6) * h ^ 4) :=
  rk4_close (uc := fun _ u un => (1 / 2 : ℝ) • (u + un)) (C11_rk4_table m F G hF h n x x0 hx us hne hm)
    hM hw hwc hL0 hL hB hC hJ hh hh1 hhL hK hy hy'

end

section
variable {V : Type} [NormedAddCommGroup V] [NormedSpace ℝ V]

/-! ### C154 -/

/-- C154, `integrate_trapz_mod`, one control for each step: the error is of order two. -/
theorem C154_trapz_mod_tape (F : DynF (V × V)) (G : (V × V) → ℝ → (V × V)) (hF : ∀ x a, F x (.num a) = .ok (G x a)) (h : ℝ) (n : ℕ)
    (x : X0Arr (V × V)) (x0 : (V × V)) (hx : x = .flat x0 ∨ x = .line x0) (us : List ℝ) (hne : us ≠ [])
    (hn : n = 2 ∨ F x0 (.row us.length us.get) = .error .typeError) (root : Root (V × V)) (hroot : Honest root)
    (hsol : ∀ x u un g, ∃ y, root (fun xn => trapzModResid F h xn x (.num u) (.num un)) g = .ok (y, true))
    (y : ℕ → (V × V)) (w : ℕ → ℝ → ℝ) (D : ℕ → ℕ → ℝ → (V × V)) (S : Set (V × V)) (L K : ℝ)
    (hM : Moves G 3 h us.length y w D) (hw : Ends us h w)
    (hG : IsSecondOrder G) (hL0 : 0 ≤ L) (hL : AccLipIn G S L) (hh : 0 ≤ h) (hhL : h * (1 + 2 * L) ≤ 1 / 2)
    (hK : ∀ i < us.length, ∀ s ∈ Icc (0 : ℝ) h, ‖D i 3 s‖ ≤ K) (hy : ∀ i ≤ us.length, y i ∈ S) :
    Near (integrateImplicit (trapzModResid F h) root n x (.vec us) F h) (AllIn S) y
      fun i => Real.exp (4 * (1 + 2 * L) * (i * h)) * (‖x0 - y 0‖ + i * h * K * h ^ 2) :=
  trapzMod_close ((C75_second_tape F G hF h n x x0 hx us hne hn root hroot).1 hsol) hM hw hG hL0 hL hh hhL hK hy

/-- C154, `integrate_hs_mod`, one control for each step: the error is of order four. -/
theorem C154_hs_mod_tape (F : DynF (V × V)) (G : (V × V) → ℝ → (V × V)) (hF : ∀ x a, F x (.num a) = .ok (G x a)) (h : ℝ) (n : ℕ)
    (x : X0Arr (V × V)) (x0 : (V × V)) (hx : x = .flat x0 ∨ x = .line x0) (us : List ℝ) (hne : us ≠ [])
    (hn : n = 2 ∨ F x0 (.row us.length us.get) = .error .typeError) (root : Root (V × V)) (hroot : Honest root)
    (hsol : ∀ x u un g, ∃ y, root (fun xn => hsModResid F h xn x (.num u) (.num un)) g = .ok (y, true))
    (y : ℕ → (V × V)) (w : ℕ → ℝ → ℝ) (D : ℕ → ℕ → ℝ → (V × V)) (S : Set (V × V)) (L K K' : ℝ)
    (hM : Moves G 5 h us.length y w D) (hw : Ends us h w)
    (hwc : ∀ i u, us[i]? = some u → w i (h / 2) = (1 / 2 : ℝ) • (u + us[i + 1]?.getD u))
    (hG : IsSecondOrder G) (hL0 : 0 ≤ L) (hL : AccLipIn G S L) (hh : 0 ≤ h) (hhL : h * (1 + 2 * L) ≤ 1 / 2)
    (hK : ∀ i < us.length, ∀ s ∈ Icc (0 : ℝ) h, ‖D i 4 s‖ ≤ K ∧ ‖D i 5 s‖ ≤ K') (hy : ∀ i < us.length, ∀ s ∈ Icc (0 : ℝ) h, D i 0 s ∈ S) :
    Near (integrateImplicit (hsModResid F h) root n x (.vec us) F h) (fun xs => AllIn S xs ∧ PairsIn S (fun i z z' => hsModXc z z' (G z (w i 0)).2 (G z' (w i h)).2 h) xs) y
      fun i => Real.exp (4 * (1 + 2 * L) * (i * h)) * (‖x0 - y 0‖ + i * h * ((K + K') / 24 + L * K / 12) * h ^ 4) :=
  hsMod_close (uc := fun _ u un => (1 / 2 : ℝ) • (u + un)) ((C75_second_tape F G hF h n x x0 hx us hne hn root hroot).2.1 hsol)
    hM hw hwc hG hL0 hL hh hhL hK hy

/-- C154, `integrate_hs_mod_parab`, one control for each step, and one for the middle of each but the last: the error is of order four. -/
theorem C154_hs_mod_parab_tape (F : DynF (V × V)) (G : (V × V) → ℝ → (V × V)) (hF : ∀ x a, F x (.num a) = .ok (G x a)) (h : ℝ) (n : ℕ)
    (x : X0Arr (V × V)) (x0 : (V × V)) (hx : x = .flat x0 ∨ x = .line x0) (us ucs : List ℝ) (hne : us ≠ []) (hucs : ucs.length + 1 = us.length)
    (hn : n = 2 ∨ F x0 (.row us.length us.get) = .error .typeError) (root : Root (V × V)) (hroot : Honest root)
    (hsol : ∀ uc x u un g, ∃ y, root (fun xn => hsModParabResid F h (.num uc) xn x (.num u) (.num un)) g = .ok (y, true))
    (y : ℕ → (V × V)) (w : ℕ → ℝ → ℝ) (D : ℕ → ℕ → ℝ → (V × V)) (S : Set (V × V)) (L K K' : ℝ)
    (hM : Moves G 5 h us.length y w D) (hw : Ends us h w)
    (hwc : ∀ i u, us[i]? = some u → w i (h / 2) = ucs[i]?.getD u)
    (hG : IsSecondOrder G) (hL0 : 0 ≤ L) (hL : AccLipIn G S L) (hh : 0 ≤ h) (hhL : h * (1 + 2 * L) ≤ 1 / 2)
    (hK : ∀ i < us.length, ∀ s ∈ Icc (0 : ℝ) h, ‖D i 4 s‖ ≤ K ∧ ‖D i 5 s‖ ≤ K') (hy : ∀ i < us.length, ∀ s ∈ Icc (0 : ℝ) h, D i 0 s ∈ S) :
    Near (integrateParab (hsModParabResid F h) (hsModResid F h) root n x (.vec us) F h (some (ucs.map (.num)))) (fun xs => AllIn S xs ∧ PairsIn S (fun i z z' => hsModXc z z' (G z (w i 0)).2 (G z' (w i h)).2 h) xs) y
      fun i => Real.exp (4 * (1 + 2 * L) * (i * h)) * (‖x0 - y 0‖ + i * h * ((K + K') / 24 + L * K / 12) * h ^ 4) :=
  hsMod_close (uc := fun i u _ => ucs[i]?.getD u) ((C75_second_parab_tape F G hF h n x x0 hx us ucs hne hucs hn root hroot).1 hsol)
    hM hw hwc hG hL0 hL hh hhL hK hy

/-- C154, `integrate_hsj`, one control for each step: the error is of order three. -/
theorem C154_hsj_tape (F : DynF (V × V)) (G : (V × V) → ℝ → (V × V)) (hF : ∀ x a, F x (.num a) = .ok (G x a)) (h : ℝ) (n : ℕ)
    (x : X0Arr (V × V)) (x0 : (V × V)) (hx : x = .flat x0 ∨ x = .line x0) (us : List ℝ) (hne : us ≠ [])
    (hn : n = 2 ∨ F x0 (.row us.length us.get) = .error .typeError) (root : Root (V × V)) (hroot : Honest root)
    (hsol : ∀ x u un g, ∃ y, root (fun xn => hsjResid F h xn x (.num u) (.num un)) g = .ok (y, true))
    (y : ℕ → (V × V)) (w : ℕ → ℝ → ℝ) (D : ℕ → ℕ → ℝ → (V × V)) (S : Set (V × V)) (L K : ℝ)
    (hM : Moves G 4 h us.length y w D) (hw : Ends us h w)
    (hwc : ∀ i u, us[i]? = some u → w i (2 * h / 5) = (0.6 : ℝ) • u + (0.4 : ℝ) • us[i + 1]?.getD u)
    (hG : IsSecondOrder G) (hL0 : 0 ≤ L) (hL : AccLipIn G S L) (hh : 0 ≤ h) (hhL : h * (1 + 2 * L) ≤ 1 / 2)
    (hK : ∀ i < us.length, ∀ s ∈ Icc (0 : ℝ) h, ‖D i 4 s‖ ≤ K) (hy : ∀ i < us.length, ∀ s ∈ Icc (0 : ℝ) h, D i 0 s ∈ S) :
    Near (integrateImplicit (hsjResid F h) root n x (.vec us) F h) (fun xs => AllIn S xs ∧ PairsIn S (fun i z z' => hsjXc z z' (G z (w i 0)).2 (G z' (w i h)).2 h) xs) y
      fun i => Real.exp (4 * (1 + 2 * L) * (i * h)) * (‖x0 - y 0‖ + i * h * (K / 2) * h ^ 3) :=
  hsj_close (uc := fun _ u un => (0.6 : ℝ) • u + (0.4 : ℝ) • un) ((C75_second_tape F G hF h n x x0 hx us hne hn root hroot).2.2 hsol)
    hM hw hwc hG hL0 hL hh hhL hK hy

/-- C154, `integrate_hsj_parab`, one control for each step, and one for the intermediate instant of each but the last: the error is of order three. -/
theorem C154_hsj_parab_tape (F : DynF (V × V)) (G : (V × V) → ℝ → (V × V)) (hF : ∀ x a, F x (.num a) = .ok (G x a)) (h : ℝ) (n : ℕ)
    (x : X0Arr (V × V)) (x0 : (V × V)) (hx : x = .flat x0 ∨ x = .line x0) (us ucs : List ℝ) (hne : us ≠ []) (hucs : ucs.length + 1 = us.length)
    (hn : n = 2 ∨ F x0 (.row us.length us.get) = .error .typeError) (root : Root (V × V)) (hroot : Honest root)
    (hsol : ∀ uc x u un g, ∃ y, root (fun xn => hsjParabResid F h (.num uc) xn x (.num u) (.num un)) g = .ok (y, true))
    (y : ℕ → (V × V)) (w : ℕ → ℝ → ℝ) (D : ℕ → ℕ → ℝ → (V × V)) (S : Set (V × V)) (L K : ℝ)
    (hM : Moves G 4 h us.length y w D) (hw : Ends us h w)
    (hwc : ∀ i u, us[i]? = some u → w i (2 * h / 5) = ucs[i]?.getD u)
    (hG : IsSecondOrder G) (hL0 : 0 ≤ L) (hL : AccLipIn G S L) (hh : 0 ≤ h) (hhL : h * (1 + 2 * L) ≤ 1 / 2)
    (hK : ∀ i < us.length, ∀ s ∈ Icc (0 : ℝ) h, ‖D i 4 s‖ ≤ K) (hy : ∀ i < us.length, ∀ s ∈ Icc (0 : ℝ) h, D i 0 s ∈ S) :
    Near (integrateParab (hsjParabResid F h) (hsjResid F h) root n x (.vec us) F h (some (ucs.map (.num)))) (fun xs => AllIn S xs ∧ PairsIn S (fun i z z' => hsjXc z z' (G z (w i 0)).2 (G z' (w i h)).2 h) xs) y
      fun i => Real.exp (4 * (1 + 2 * L) * (i * h)) * (‖x0 - y 0‖ + i * h * (K / 2) * h ^ 3) :=
  hsj_close (uc := fun i u _ => ucs[i]?.getD u) ((C75_second_parab_tape F G hF h n x x0 hx us ucs hne hucs hn root hroot).2 hsol)
    hM hw hwc hG hL0 hL hh hhL hK hy

/-- C154, `integrate_trapz_mod`, one row of controls for each step: the error is of order two. -/
theorem C154_trapz_mod_table (m : ℕ) (F : DynF (V × V)) (G : (V × V) → (Fin m → ℝ) → (V × V)) (hF : ∀ x c, F x (.row m c) = .ok (G x c)) (h : ℝ) (n : ℕ)
    (x : X0Arr (V × V)) (x0 : (V × V)) (hx : x = .flat x0 ∨ x = .line x0) (us : List (Fin m → ℝ)) (hne : us ≠ [])
    (hm : us.length ≠ 1 ∨ m = 1) (root : Root (V × V)) (hroot : Honest root)
    (hsol : ∀ x u un g, ∃ y, root (fun xn => trapzModResid F h xn x (.row m u) (.row m un)) g = .ok (y, true))
    (y : ℕ → (V × V)) (w : ℕ → ℝ → (Fin m → ℝ)) (D : ℕ → ℕ → ℝ → (V × V)) (S : Set (V × V)) (L K : ℝ)
    (hM : Moves G 3 h us.length y w D) (hw : Ends us h w)
    (hG : IsSecondOrder G) (hL0 : 0 ≤ L) (hL : AccLipIn G S L) (hh : 0 ≤ h) (hhL : h * (1 + 2 * L) ≤ 1 / 2)
    (hK : ∀ i < us.length, ∀ s ∈ Icc (0 : ℝ) h, ‖D i 3 s‖ ≤ K) (hy : ∀ i ≤ us.length, y i ∈ S) :
    Near (integrateImplicit (trapzModResid F h) root n x (.mat m us) F h) (AllIn S) y
      fun i => Real.exp (4 * (1 + 2 * L) * (i * h)) * (‖x0 - y 0‖ + i * h * K * h ^ 2) :=
  trapzMod_close ((C75_second_table m F G hF h n x x0 hx us hne hm root hroot).1 hsol) hM hw hG hL0 hL hh hhL hK hy

/-- C154, `integrate_hs_mod`, one row of controls for each step: the error is of order four. -/
theorem C154_hs_mod_table (m : ℕ) (F : DynF (V × V)) (G : (V × V) → (Fin m → ℝ) → (V × V)) (hF : ∀ x c, F x (.row m c) = .ok (G x c)) (h : ℝ) (n : ℕ)
    (x : X0Arr (V × V)) (x0 : (V × V)) (hx : x = .flat x0 ∨ x = .line x0) (us : List (Fin m → ℝ)) (hne : us ≠ [])
    (hm : us.length ≠ 1 ∨ m = 1) (root : Root (V × V)) (hroot : Honest root)
    (hsol : ∀ x u un g, ∃ y, root (fun xn => hsModResid F h xn x (.row m u) (.row m un)) g = .ok (y, true))
    (y : ℕ → (V × V)) (w : ℕ → ℝ → (Fin m → ℝ)) (D : ℕ → ℕ → ℝ → (V × V)) (S : Set (V × V)) (L K K' : ℝ)
    (hM : Moves G 5 h us.length y w D) (hw : Ends us h w)
    (hwc : ∀ i u, us[i]? = some u → w i (h / 2) = (1 / 2 : ℝ) • (u + us[i + 1]?.getD u))
    (hG : IsSecondOrder G) (hL0 : 0 ≤ L) (hL : AccLipIn G S L) (hh : 0 ≤ h) (hhL : h * (1 + 2 * L) ≤ 1 / 2)
    (hK : ∀ i < us.length, ∀ s ∈ Icc (0 : ℝ) h, ‖D i 4 s‖ ≤ K ∧ ‖D i 5 s‖ ≤ K') (hy : ∀ i < us.length, ∀ s ∈ Icc (0 : ℝ) h, D i 0 s ∈ S) :
    Near (integrateImplicit (hsModResid F h) root n x (.mat m us) F h) (fun xs => AllIn S xs ∧ PairsIn S (fun i z z' => hsModXc z z' (G z (w i 0)).2 (G z' (w i h)).2 h) xs) y
      fun i => Real.exp (4 * (1 + 2 * L) * (i * h)) * (‖x0 - y 0‖ + i * h * ((K + K') / 24 + L * K / 12) * h ^ 4) :=
  hsMod_close (uc := fun _ u un => (1 / 2 : ℝ) • (u + un)) ((C75_second_table m F G hF h n x x0 hx us hne hm root hroot).2.1 hsol)
    hM hw hwc hG hL0 hL hh hhL hK hy

/-- C154, `integrate_hs_mod_parab`, one row of controls for each step, and one for the middle of each but the last: the error is of order four. -/
theorem C154_hs_mod_parab_table (m : ℕ) (F : DynF (V × V)) (G : (V × V) → (Fin m → ℝ) → (V × V)) (hF : ∀ x c, F x (.row m c) = .ok (G x c)) (h : ℝ) (n : ℕ)
    (x : X0Arr (V × V)) (x0 : (V × V)) (hx : x = .flat x0 ∨ x = .line x0) (us ucs : List (Fin m → ℝ)) (hne : us ≠ []) (hucs : ucs.length + 1 = us.length)
    (hm : us.length ≠ 1 ∨ m = 1) (root : Root (V × V)) (hroot : Honest root)
    (hsol : ∀ uc x u un g, ∃ y, root (fun xn => hsModParabResid F h (.row m uc) xn x (.row m u) (.row m un)) g = .ok (y, true))
    (y : ℕ → (V × V)) (w : ℕ → ℝ → (Fin m → ℝ)) (D : ℕ → ℕ → ℝ → (V × V)) (S : Set (V × V)) (L K K' : ℝ)
    (hM : Moves G 5 h us.length y w D) (hw : Ends us h w)
    (hwc : ∀ i u, us[i]? = some u → w i (h / 2) = ucs[i]?.getD u)
    (hG : IsSecondOrder G) (hL0 : 0 ≤ L) (hL : AccLipIn G S L) (hh : 0 ≤ h) (hhL : h * (1 + 2 * L) ≤ 1 / 2)
    (hK : ∀ i < us.length, ∀ s ∈ Icc (0 : ℝ) h, ‖D i 4 s‖ ≤ K ∧ ‖D i 5 s‖ ≤ K') (hy : ∀ i < us.length, ∀ s ∈ Icc (0 : ℝ) h, D i 0 s ∈ S) :
    Near (integrateParab (hsModParabResid F h) (hsModResid F h) root n x (.mat m us) F h (some (ucs.map (.row m)))) (fun xs => AllIn S xs ∧ PairsIn S (fun i z z' => hsModXc z z' (G z (w i 0)).2 (G z' (w i h)).2 h) xs) y
      fun i => Real.exp (4 * (1 + 2 * L) * (i * h)) * (‖x0 - y 0‖ + i * h * ((K + K') / 24 + L * K / 12) * h ^ 4) :=
  hsMod_close (uc := fun i u _ => ucs[i]?.getD u) ((C75_second_parab_table m F G hF h n x x0 hx us ucs hne hucs hm root hroot).1 hsol)
    hM hw hwc hG hL0 hL hh hhL hK hy

/-- C154, `integrate_hsj`, one row of controls for each step: the error is of order three. -/
theorem C154_hsj_table (m : ℕ) (F : DynF (V × V)) (G : (V × V) → (Fin m → ℝ) → (V × V)) (hF : ∀ x c, F x (.row m c) = .ok (G x c)) (h : ℝ) (n : ℕ)
    (x : X0Arr (V × V)) (x0 : (V × V)) (hx : x = .flat x0 ∨ x = .line x0) (us : List (Fin m → ℝ)) (hne : us ≠ [])
    (hm : us.length ≠ 1 ∨ m = 1) (root : Root (V × V)) (hroot : Honest root)
    (hsol : ∀ x u un g, ∃ y, root (fun xn => hsjResid F h xn x (.row m u) (.row m un)) g = .ok (y, true))
    (y : ℕ → (V × V)) (w : ℕ → ℝ → (Fin m → ℝ)) (D : ℕ → ℕ → ℝ → (V × V)) (S : Set (V × V)) (L K : ℝ)
    (hM : Moves G 4 h us.length y w D) (hw : Ends us h w)
    (hwc : ∀ i u, us[i]? = some u → w i (2 * h / 5) = (0.6 : ℝ) • u + (0.4 : ℝ) • us[i + 1]?.getD u)
    (hG : IsSecondOrder G) (hL0 : 0 ≤ L) (hL : AccLipIn G S L) (hh : 0 ≤ h) (hhL : h * (1 + 2 * L) ≤ 1 / 2)
    (hK : ∀ i < us.length, ∀ s ∈ Icc (0 : ℝ) h, ‖D i 4 s‖ ≤ K) (hy : ∀ i < us.length, ∀ s ∈ Icc (0 : ℝ) h, D i 0 s ∈ S) :
    Near (integrateImplicit (hsjResid F h) root n x (.mat m us) F h) (fun xs => AllIn S xs ∧ PairsIn S (fun i z z' => hsjXc z z' (G z (w i 0)).2 (G z' (w i h)).2 h) xs) y
      fun i => Real.exp (4 * (1 + 2 * L) * (i * h)) * (‖x0 - y 0‖ + i * h * (K / 2) * h ^ 3) :=
  hsj_close (uc := fun _ u un => (0.6 : ℝ) • u + (0.4 : ℝ) • un) ((C75_second_table m F G hF h n x x0 hx us hne hm root hroot).2.2 hsol)
    hM hw hwc hG hL0 hL hh hhL hK hy

/-- C154, `integrate_hsj_parab`, one row of controls for each step, and one for the intermediate instant of each but the last: the error is of order three. -/
theorem C154_hsj_parab_table (m : ℕ) (F : DynF (V × V)) (G : (V × V) → (Fin m → ℝ) → (V × V)) (hF : ∀ x c, F x (.row m c) = .ok (G x c)) (h : ℝ) (n : ℕ)
    (x : X0Arr (V × V)) (x0 : (V × V)) (hx : x = .flat x0 ∨ x = .line x0) (us ucs : List (Fin m → ℝ)) (hne : us ≠ []) (hucs : ucs.length + 1 = us.length)
    (hm : us.length ≠ 1 ∨ m = 1) (root : Root (V × V)) (hroot : Honest root)
    (hsol : ∀ uc x u un g, ∃ y, root (fun xn => hsjParabResid F h (.row m uc) xn x (.row m u) (.row m un)) g = .ok (y, true))
    (y : ℕ → (V × V)) (w : ℕ → ℝ → (Fin m → ℝ)) (D : ℕ → ℕ → ℝ → (V × V)) (S : Set (V × V)) (L K : ℝ)
    (hM : Moves G 4 h us.length y w D) (hw : Ends us h w)
    (hwc : ∀ i u, us[i]? = some u → w i (2 * h / 5) = ucs[i]?.getD u)
    (hG : IsSecondOrder G) (hL0 : 0 ≤ L) (hL : AccLipIn G S L) (hh : 0 ≤ h) (hhL : h * (1 + 2 * L) ≤ 1 / 2)
    (hK : ∀ i < us.length, ∀ s ∈ Icc (0 : ℝ) h, ‖D i 4 s‖ ≤ K) (hy : ∀ i < us.length, ∀ s ∈ Icc (0 : ℝ) h, D i 0 s ∈ S) :
    Near (integrateParab (hsjParabResid F h) (hsjResid F h) root n x (.mat m us) F h (some (ucs.map (.row m)))) (fun xs => AllIn S xs ∧ PairsIn S (fun i z z' => hsjXc z z' (G z (w i 0)).2 (G z' (w i h)).2 h) xs) y
      fun i => Real.exp (4 * (1 + 2 * L) * (i * h)) * (‖x0 - y 0‖ + i * h * (K / 2) * h ^ 3) :=
  hsj_close (uc := fun i u _ => ucs[i]?.getD u) ((C75_second_parab_table m F G hF h n x x0 hx us ucs hne hucs hm root hroot).2 hsol)
    hM hw hwc hG hL0 hL hh hhL hK hy

end


/-! ### Concrete cases -/

/-- `x' = x + u`. -/
def grow : DynF ℝ := fun x c => match c with
  | .num a => .ok (x + a)
  | .row _ _ => .error .typeError

/-- The exponential is the motion of `x' = x + u` without control, with all its derivatives. -/
theorem exp_moves (r : ℕ) (h : ℝ) (N : ℕ) :
    Moves (fun x u : ℝ => x + u) r h N (fun i => Real.exp (i * h)) (fun _ _ => 0) fun i _ s => Real.exp (i * h + s) where
  tower := fun i _ k _ s _ => by
    have := (Real.hasDerivAt_exp (i * h + s)).comp_const_add (i * h) s
    exact this.hasDerivWithinAt
  dyn := fun _ _ _ _ => by simp
  start := fun _ _ => by simp
  stop := fun _ _ => by push_cast; ring_nf

theorem exp_bound {h : ℝ} {N i : ℕ} (hi : i < N) (hN : N * h ≤ 1) {s : ℝ} (hs : s ∈ Icc (0 : ℝ) h) : ‖Real.exp (i * h + s)‖ ≤ 3 := by
  rw [Real.norm_of_nonneg (Real.exp_pos _).le]
  have h1 : (i : ℝ) + 1 ≤ N := by exact_mod_cast hi
  have h0 : 0 ≤ h := hs.1.trans hs.2
  have : (i : ℝ) * h + s ≤ 1 := by nlinarith [hs.2]
  exact (Real.exp_le_exp.2 this).trans Real.exp_one_lt_d9.le |>.trans (by norm_num)

theorem zero_ends (N : ℕ) (h : ℝ) : Ends (List.replicate N (0 : ℝ)) h fun _ _ => 0 := by
  intro i u hu
  have : u = 0 := by
    have := List.mem_of_getElem? hu
    exact List.eq_of_mem_replicate this
  subst this
  refine ⟨rfl, ?_⟩
  rw [List.getElem?_replicate]
  split_ifs <;> rfl

theorem zero_mean (N : ℕ) (i : ℕ) (u : ℝ) (hu : (List.replicate N (0 : ℝ))[i]? = some u) :
    (0 : ℝ) = (1 / 2 : ℝ) • (u + (List.replicate N (0 : ℝ))[i + 1]?.getD u) := by
  have h := zero_ends N 0 i u hu
  rw [← h.2, ← h.1]
  simp

theorem affine_root (a b : ℝ) (ha : a ≠ 0) : ∃ y, a * y = b := ⟨b / a, by field_simp⟩

/-- C152 on a case: Euler's method with `N` steps of size `h` on `x' = x + u`, without control, from `1`, for a time of at most one. -/
example (N : ℕ) (h : ℝ) (hh : 0 ≤ h) (hN : N * h ≤ 1) :
    ∃ xs, integrateEuler 1 (.flat 1) (.vec (List.replicate N 0)) grow h = .ok xs ∧
      ∀ (i : ℕ) z, xs[i]? = some z → ‖z - Real.exp (i * h)‖ ≤ Real.exp (1 * (i * h)) * (‖(1 : ℝ) - Real.exp ((0 : ℕ) * h)‖ + i * h * (3 / 2) * h) := by
  obtain ⟨xs, h1, h2⟩ := C152_euler_tape grow (fun x u => x + u) (fun _ _ => rfl) h 1 (.flat 1) 1 (.inl rfl) (List.replicate N 0) (.inr rfl)
    (fun i => Real.exp (i * h)) (fun _ _ => 0) _ univ 1 3 (exp_moves 2 h _) (zero_ends N h) (by norm_num)
    (fun a _ b _ u => by simp) hh (fun i hi s hs => exp_bound hi (by simpa using hN) hs) (fun _ _ => mem_univ _)
  exact ⟨xs, h1, h2 fun _ _ => mem_univ _⟩

/-- C152 on a case: Hermite-Simpson with `N + 1` steps of size `h` on the same system. -/
example (N : ℕ) (h : ℝ) (hh : 0 ≤ h) (hN : (N + 1 : ℕ) * h ≤ 1) (hh2 : h * 1 ≤ 1 / 2) :
    ∃ xs, integrateImplicit (hsResid grow h) ideal 1 (.flat 1) (.vec (List.replicate (N + 1) 0)) grow h = .ok xs ∧
      ∀ (i : ℕ) z, xs[i]? = some z → ‖z - Real.exp (i * h)‖ ≤
        Real.exp (4 * 1 * (i * h)) * (‖(1 : ℝ) - Real.exp ((0 : ℕ) * h)‖ + i * h * (3 / 24 + 1 * 3 / 12) * h ^ 4) := by
  obtain ⟨xs, h1, h2⟩ := C152_hs_tape grow (fun x u => x + u) (fun _ _ => rfl) h 1 (.flat 1) 1 (.inl rfl) (List.replicate (N + 1) 0) (by simp) (.inr rfl)
    ideal ideal_honest
    (fun x u un g => ideal_solves _ g (by
      obtain ⟨y, hy⟩ := affine_root (1 - h / 2 + h ^ 2 / 12)
        ((1 + h / 2 + h ^ 2 / 12) * x + (h / 6 + h ^ 2 / 12) * u + h / 3 * (u + un) + (h / 6 - h ^ 2 / 12) * un) (by nlinarith)
      refine ⟨y, ?_⟩
      simp only [hsResid, hsParabResid, grow, Ctrl.comb, bind, Except.bind, pure, Except.pure, smul_eq_mul]
      congr 1
      linear_combination -hy))
    (fun i => Real.exp (i * h)) (fun _ _ => 0) _ univ 1 3 3 (exp_moves 5 h _) (zero_ends _ h) (zero_mean _) (by norm_num)
    (fun a _ b _ u => by simp) hh hh2 (fun i hi s hs => ⟨exp_bound hi (by simpa using hN) hs, exp_bound hi (by simpa using hN) hs⟩)
    (fun _ _ _ _ => mem_univ _)
  exact ⟨xs, h1, h2 ⟨fun _ _ => mem_univ _, fun _ _ _ _ _ => mem_univ _⟩⟩

/-- C153 on a case: the same system, which is linear. -/
example (N : ℕ) (h : ℝ) (hh : 0 ≤ h) (hN : (N + 1 : ℕ) * h ≤ 1) (hh2 : h * 1 ≤ 1 / 2) :
    ∃ xs, integrateRk4 1 (.flat 1) (.vec (List.replicate (N + 1) 0)) grow h none = .ok xs ∧
      ∀ (i : ℕ) z, xs[i]? = some z → ‖z - Real.exp (i * h)‖ ≤
        Real.exp (2 * 1 * (i * h)) * (‖(1 : ℝ) - Real.exp ((0 : ℕ) * h)‖ + i * h * (3 / 48 + (1 * 3 + 1 ^ 2 * (3 + 1 * 3) + 0 * 3 ^ 2 + 0 * (3 + 1 * 3) + 0 * (3 + 1 * 3) ^ 2) / 6) * h ^ 4) := by
  have hb : ∀ i < (List.replicate (N + 1) (0 : ℝ)).length, ∀ s ∈ Icc (0 : ℝ) h, ‖Real.exp (i * h + s)‖ ≤ 3 :=
    fun i hi s hs => exp_bound hi (by simpa using hN) hs
  obtain ⟨xs, h1, h2⟩ := C153_rk4_tape grow (fun x u => x + u) (fun _ _ => rfl) h 1 (.flat 1) 1 (.inl rfl) (List.replicate (N + 1) 0) (by simp) (.inr rfl)
    (fun i => Real.exp (i * h)) (fun _ _ => 0) _ univ 1 0 0 3 3 3 3 (fun _ _ => LinearMap.id) (exp_moves 5 h _) (zero_ends _ h) (zero_mean _) (by norm_num)
    (fun a _ b _ u => by simp) le_rfl le_rfl ⟨fun _ _ _ => by simp, fun _ _ _ => by simp, fun _ _ _ _ _ _ => by simp⟩ hh (by linarith) hh2
    (fun i hi s hs => ⟨hb i hi s hs, hb i hi s hs, hb i hi s hs, hb i hi s hs⟩)
    (fun _ _ => ⟨mem_univ _, mem_univ _, mem_univ _, mem_univ _⟩) (fun _ _ => mem_univ _)
  exact ⟨xs, h1, h2 fun _ _ _ _ => ⟨mem_univ _, mem_univ _, mem_univ _, mem_univ _⟩⟩

/-- `q'' = q' + u`. -/
def speed : DynF (ℝ × ℝ) := fun x c => match c with
  | .num a => .ok (x.2, x.2 + a)
  | .row _ _ => .error .typeError

theorem speed_moves (r : ℕ) (h : ℝ) (N : ℕ) :
    Moves (fun (x : ℝ × ℝ) (u : ℝ) => (x.2, x.2 + u)) r h N (fun i => (Real.exp (i * h), Real.exp (i * h))) (fun _ _ => 0)
      fun i _ s => (Real.exp (i * h + s), Real.exp (i * h + s)) where
  tower := fun i hi k hk s hs => ((exp_moves r h N).tower i hi k hk s hs).prodMk ((exp_moves r h N).tower i hi k hk s hs)
  dyn := fun _ _ _ _ => by simp
  start := fun _ _ => by simp
  stop := fun _ _ => by push_cast; ring_nf

theorem zero_hsj (N : ℕ) (i : ℕ) (u : ℝ) (hu : (List.replicate N (0 : ℝ))[i]? = some u) :
    (0 : ℝ) = (0.6 : ℝ) • u + (0.4 : ℝ) • (List.replicate N (0 : ℝ))[i + 1]?.getD u := by
  have h := zero_ends N 0 i u hu
  rw [← h.2, ← h.1]
  simp

/-- C154 on a case: the third order scheme on `q'' = q' + u`, without control, from position one with speed one. -/
example (N : ℕ) (h : ℝ) (hh : 0 ≤ h) (hN : (N + 1 : ℕ) * h ≤ 1) (hh2 : h * (1 + 2 * 1) ≤ 1 / 2) :
    ∃ xs, integrateImplicit (hsjResid speed h) ideal 2 (.flat (1, 1)) (.vec (List.replicate (N + 1) 0)) speed h = .ok xs ∧
      ∀ (i : ℕ) z, xs[i]? = some z → ‖z - (Real.exp (i * h), Real.exp (i * h))‖ ≤
        Real.exp (4 * (1 + 2 * 1) * (i * h)) * (‖((1, 1) : ℝ × ℝ) - (Real.exp ((0 : ℕ) * h), Real.exp ((0 : ℕ) * h))‖ + i * h * (3 / 2) * h ^ 3) := by
  obtain ⟨xs, h1, h2⟩ := C154_hsj_tape speed (fun x u => (x.2, x.2 + u)) (fun _ _ => rfl) h 2 (.flat (1, 1)) (1, 1) (.inl rfl)
    (List.replicate (N + 1) 0) (by simp) (.inl rfl) ideal ideal_honest
    (fun x u un g => ideal_solves _ g (by
      obtain ⟨y, hy⟩ := affine_root (1 - h / 36 * (16.8 - 2.4 * h))
        (x.2 + h / 36 * (3 * (x.2 + u) + 25 * (81 / 125 * x.2 + h / 125 * (18 * (x.2 + u) - 12 * un) + (0.6 * u + 0.4 * un)) + 8 * un)) (by nlinarith)
      refine ⟨(x.1 + h * x.2 + (h ^ 2 / 72) * (9 * (x.2 + u)
        + 25 * (1 / 125 * (81 * x.2 + 44 * y) + h / 125 * (18 * (x.2 + u) - 12 * (y + un)) + (0.6 * u + 0.4 * un)) + 2 * (y + un)), y), ?_⟩
      simp only [hsjResid, hsjParabResid, speed, Ctrl.comb, bind, Except.bind, pure, Except.pure, smul_eq_mul]
      congr 1
      refine Prod.ext ?_ ?_
      · simp only [Prod.fst_zero]
        ring
      · simp only [Prod.snd_zero]
        linear_combination -hy))
    (fun i => (Real.exp (i * h), Real.exp (i * h))) (fun _ _ => 0) _ univ 1 3 (speed_moves 4 h _) (zero_ends _ h) (zero_hsj _)
    (fun _ _ => rfl) (by norm_num) (fun a _ b _ u => by simpa using norm_snd_le (a - b)) hh hh2
    (fun i hi s hs => by
      have := exp_bound hi (by simpa using hN) hs
      exact max_le this this)
    (fun _ _ _ _ => mem_univ _)
  exact ⟨xs, h1, h2 ⟨fun _ _ => mem_univ _, fun _ _ _ _ _ => mem_univ _⟩⟩

end Chords.Conv
