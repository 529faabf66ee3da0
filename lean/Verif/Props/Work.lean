import Verif.Props.Energy

/-! # C196: the work of the forces is the change of the mechanical energy -/

namespace Chords.Work
open Finset Polynomial Chords.Points Chords.Bary Chords.BuTd Chords.PhScheme Chords.Problem Chords.Spec Chords.Props Chords.TimeScale Chords.Gauss Chords.Momentum Chords.Energy

/-- A mechanical energy: quadratic in the last derivatives below the highest one, the velocities in problems of second order, and linear in the ones
before, the coordinates. -/
def mech (A : ℕ → ℕ → ℝ) (l g : ℕ → ℝ) (order n : ℕ) (x : ℕ → ℝ) : ℝ :=
  energy A l n (fun j => x (n * (order - 1) + j)) + ∑ j ∈ range n, g j * x (n * (order - 2) + j)

/-- Its rate of change with the highest derivatives in `xd`. -/
def mechPower (A : ℕ → ℕ → ℝ) (l g : ℕ → ℝ) (order n : ℕ) (x xd : ℕ → ℝ) : ℝ :=
  power A l n (fun j => x (n * (order - 1) + j)) (fun j => xd (n * (order - 1) + j)) + ∑ j ∈ range n, g j * x (n * (order - 1) + j)

/-- Whenever the equations hold the power is `σ`, a function of the state and the controls. -/
def Worked (F : Dyn) (A : ℕ → ℕ → ℝ) (l g : ℕ → ℝ) (order n : ℕ) (σ : (ℕ → ℝ) → (ℕ → ℝ) → ℝ) : Prop :=
  ∀ x xd u lam, zero (F x xd u lam) → mechPower A l g order n x xd = σ x u

/-- Whenever the equations hold the power is at most `σ`. -/
def WorkedAtMost (F : Dyn) (A : ℕ → ℕ → ℝ) (l g : ℕ → ℝ) (order n : ℕ) (σ : (ℕ → ℝ) → (ℕ → ℝ) → ℝ) : Prop :=
  ∀ x xd u lam, zero (F x xd u lam) → mechPower A l g order n x xd ≤ σ x u

/-- From row `r0` to row `r1`, `h` later, the energy changes by the work of `σ`, as the weights `w` measure it in the rows `rx m` with the controls of the
rows `ru m`. -/
def WorkIs (F : Dyn) (v : Vars) (order n N : ℕ) (w : ℕ → ℝ) (r0 r1 : ℕ) (rx ru : ℕ → ℕ) (h : ℝ) : Prop :=
  ∀ A l g σ, Worked F A l g order n σ →
    mech A l g order n (v.x r1) - mech A l g order n (v.x r0) = h / 2 * ∑ m ∈ range N, w m * σ (v.x (rx m)) (v.u (ru m))

/-- The energy grows at most by that work. -/
def WorkBounds (F : Dyn) (v : Vars) (order n N : ℕ) (w : ℕ → ℝ) (r0 r1 : ℕ) (rx ru : ℕ → ℕ) (h : ℝ) (A : ℕ → ℕ → ℝ) : Prop :=
  ∀ l g σ, WorkedAtMost F A l g order n σ →
    mech A l g order n (v.x r1) - mech A l g order n (v.x r0) ≤ h / 2 * ∑ m ∈ range N, w m * σ (v.x (rx m)) (v.u (ru m))

/-- What the schemes do with the work: those of Gauss measure it exactly, that of Radau with the end among the points, at least two of them, never too
small when the kinetic energy is not negative. -/
def Measures (S : String) (F : Dyn) (v : Vars) (order n N : ℕ) (w : ℕ → ℝ) (r0 r1 : ℕ) (rx ru : ℕ → ℕ) (t0 t1 : ℝ) : Prop :=
  (S ≠ "LGR_inv" → WorkIs F v order n N w r0 r1 rx ru (t1 - t0)) ∧
    (t0 ≤ t1 → ∀ A, S ≠ "LGR_inv" ∨ (2 ≤ N ∧ Semidefinite A n) → WorkBounds F v order n N w r0 r1 rx ru (t1 - t0) A)

section
variable {F : Dyn} {v : Vars} {order n N : ℕ} {w : ℕ → ℝ} {coll full : List ℝ} {r0 r1 last : ℕ} {rx ru : ℕ → ℕ} {t0 t1 : ℝ}

/-- The rows are values of polynomials and of their derivatives, and meet the dynamics at the points. -/
def Path (F : Dyn) (v : Vars) (order n N : ℕ) (coll : List ℝ) (r0 r1 : ℕ) (rx ru : ℕ → ℕ) (t0 t1 : ℝ) : Prop :=
  ∃ Q : ℕ → ℝ[X], (∀ j < n, (Q j).degree < (order + N : ℕ) ∧
    (∀ k < order, v.lev order n k r0 j = (derivative^[k] (Q j)).eval t0 ∧ v.lev order n k r1 j = (derivative^[k] (Q j)).eval t1) ∧
    ∀ k ≤ order, ∀ m < N, v.lev order n k (rx m) j = (derivative^[k] (Q j)).eval (tauToT (arr coll m) t0 t1)) ∧
    ∀ m < N, ∃ lam, zero (F (v.x (rx m)) (v.xd (rx m)) (v.u (ru m)) lam)

/-- Weights that are exact up to degree `N` measure the way of a polynomial of degree at most `N + 1` from its velocity. -/
theorem way (hw : ∀ p : ℝ[X], p.degree < (N + 1 : ℕ) → ∑ i ∈ range N, w i * p.eval (arr coll i) = ∫ x in (-1 : ℝ)..1, p.eval x)
    {G : ℝ[X]} (hG : G.degree < (N + 1 + 1 : ℕ)) (t0 t1 : ℝ) :
    G.eval t1 - G.eval t0 = (t1 - t0) / 2 * ∑ m ∈ range N, w m * (derivative G).eval (tauToT (arr coll m) t0 t1) := by
  obtain ⟨R, r1, r2, r3⟩ := on_tau (n := 1) (N := N + 1) (fun _ => G) (fun _ _ => hG) t0 t1
  have e1 : tauToT 1 t0 t1 = t1 := by unfold tauToT; ring
  have e2 : tauToT (-1) t0 t1 = t0 := by unfold tauToT; ring
  have d : (derivative (R 0)).degree < (N + 1 : ℕ) := by
    have := natDegree_derivative_le (R 0)
    have := r1 0 one_pos
    exact lt_of_le_of_lt degree_le_natDegree (by exact_mod_cast (by omega : (derivative (R 0)).natDegree < N + 1))
  have h : ∫ x in (-1 : ℝ)..1, (derivative (R 0)).eval x = _ := integ_derivative (-1) 1 (R 0)
  rw [← hw _ d, r2, r2, e1, e2] at h
  rw [← h, mul_sum]
  exact sum_congr rfl fun m _ => by rw [r3]; ring

private theorem path_parts (ho : 2 ≤ order) (hN : 1 ≤ N) (h : Path F v order n N coll r0 r1 rx ru t0 t1) : ∃ P G : ℕ → ℝ[X], (∀ j < n, (P j).degree < (N + 1 : ℕ) ∧ (G j).degree < (N + 1 + 1 : ℕ) ∧
      derivative (G j) = P j ∧ v.x r0 (n * (order - 1) + j) = (P j).eval t0 ∧ v.x r1 (n * (order - 1) + j) = (P j).eval t1 ∧
      v.x r0 (n * (order - 2) + j) = (G j).eval t0 ∧ v.x r1 (n * (order - 2) + j) = (G j).eval t1 ∧
      ∀ m < N, v.x (rx m) (n * (order - 1) + j) = (P j).eval (tauToT (arr coll m) t0 t1) ∧
        v.xd (rx m) (n * (order - 1) + j) = (derivative (P j)).eval (tauToT (arr coll m) t0 t1)) ∧
    ∀ m < N, ∃ lam, zero (F (v.x (rx m)) (v.xd (rx m)) (v.u (ru m)) lam) := by
  obtain ⟨Q, hQ, hF⟩ := h
  obtain ⟨o, rfl⟩ : ∃ o, order = o + 2 := ⟨order - 2, by omega⟩
  rw [show o + 2 - 1 = o + 1 by omega, show o + 2 - 2 = o by omega]
  have d : ∀ k j, derivative (derivative^[k] (Q j)) = derivative^[k + 1] (Q j) := fun k j => (Function.iterate_succ_apply' derivative k (Q j)).symm
  have lo : ∀ k < o + 2, ∀ i j, v.lev (o + 2) n k i j = v.x i (n * k + j) := fun k hk i j => by simp only [Vars.lev, if_pos hk]
  have top : ∀ i j, v.lev (o + 2) n (o + 2) i j = v.xd i (n * (o + 1) + j) := fun i j => by simp [Vars.lev]
  refine ⟨fun j => derivative^[o + 1] (Q j), fun j => derivative^[o] (Q j), fun j hj => ?_, hF⟩
  obtain ⟨h1, h2, h3⟩ := hQ j hj
  refine ⟨degree_iterate (by omega) (h1.trans_le (by exact_mod_cast (by omega))), degree_iterate (by omega) (h1.trans_le (by exact_mod_cast (by omega))), d o j, ?_, ?_, ?_, ?_, fun m hm => ⟨?_, ?_⟩⟩
  · rw [← lo _ (by omega)]; exact (h2 (o + 1) (by omega)).1
  · rw [← lo _ (by omega)]; exact (h2 (o + 1) (by omega)).2
  · rw [← lo _ (by omega)]; exact (h2 o (by omega)).1
  · rw [← lo _ (by omega)]; exact (h2 o (by omega)).2
  · rw [← lo _ (by omega)]; exact h3 (o + 1) (by omega) m hm
  · rw [← top, d]; exact h3 (o + 2) le_rfl m hm

private theorem gravity (hw : ∀ p : ℝ[X], p.degree < (N + 1 : ℕ) → ∑ i ∈ range N, w i * p.eval (arr coll i) = ∫ x in (-1 : ℝ)..1, p.eval x) (g : ℕ → ℝ)
    {P G : ℕ → ℝ[X]} (hG : ∀ j < n, (G j).degree < (N + 1 + 1 : ℕ) ∧ derivative (G j) = P j) :
    ∑ j ∈ range n, g j * (G j).eval t1 - ∑ j ∈ range n, g j * (G j).eval t0 =
      (t1 - t0) / 2 * ∑ m ∈ range N, w m * ∑ j ∈ range n, g j * (P j).eval (tauToT (arr coll m) t0 t1) := by
  have e : ∑ m ∈ range N, w m * ∑ j ∈ range n, g j * (P j).eval (tauToT (arr coll m) t0 t1) = ∑ j ∈ range n, g j * ∑ m ∈ range N, w m * (P j).eval (tauToT (arr coll m) t0 t1) := by
    simp only [mul_sum]
    rw [sum_comm]
    exact sum_congr rfl fun j _ => sum_congr rfl fun m _ => by ring
  rw [e, mul_sum, ← sum_sub_distrib]
  refine sum_congr rfl fun j hj => ?_
  obtain ⟨h1, h2⟩ := hG j (mem_range.1 hj)
  have := way hw h1 t0 t1
  rw [h2] at this
  rw [← mul_sub, this]
  ring

private theorem rate {A : ℕ → ℕ → ℝ} {l g : ℕ → ℝ} {P : ℕ → ℝ[X]} {m : ℕ}
    (hP : ∀ j < n, v.x (rx m) (n * (order - 1) + j) = (P j).eval (tauToT (arr coll m) t0 t1) ∧ v.xd (rx m) (n * (order - 1) + j) = (derivative (P j)).eval (tauToT (arr coll m) t0 t1)) :
    mechPower A l g order n (v.x (rx m)) (v.xd (rx m)) = power A l n (fun j => (P j).eval (tauToT (arr coll m) t0 t1)) (fun j => (derivative (P j)).eval (tauToT (arr coll m) t0 t1)) +
      ∑ j ∈ range n, g j * (P j).eval (tauToT (arr coll m) t0 t1) := by
  unfold mechPower
  rw [power_congr (fun j hj => (hP j hj).1) fun j hj => (hP j hj).2]
  exact congrArg _ (sum_congr rfl fun j hj => by rw [(hP j (mem_range.1 hj)).1])

private theorem change {A : ℕ → ℕ → ℝ} {l g : ℕ → ℝ} {P G : ℕ → ℝ[X]} (h0 : ∀ j < n, v.x r0 (n * (order - 1) + j) = (P j).eval t0 ∧ v.x r0 (n * (order - 2) + j) = (G j).eval t0) :
    mech A l g order n (v.x r0) = energy A l n (fun j => (P j).eval t0) + ∑ j ∈ range n, g j * (G j).eval t0 := by
  unfold mech
  rw [energy_congr fun j hj => (h0 j hj).1]
  exact congrArg _ (sum_congr rfl fun j hj => by rw [(h0 j (mem_range.1 hj)).2])

/-- The weighted sum of the powers. -/
private theorem Path.sum (ho : 2 ≤ order) (hN : 1 ≤ N) (h : Path F v order n N coll r0 r1 rx ru t0 t1) {A : ℕ → ℕ → ℝ} {l g : ℕ → ℝ} {r : ℝ → ℝ → Prop}
    (hr : ∀ a b c, r a b → r (a + c) (b + c))
    (hw : ∀ p : ℝ[X], p.degree < (N + 1 : ℕ) → ∑ i ∈ range N, w i * p.eval (arr coll i) = ∫ x in (-1 : ℝ)..1, p.eval x)
    (hk : ∀ P : ℕ → ℝ[X], (∀ j < n, (P j).degree < (N + 1 : ℕ)) → r (energy A l n (fun j => (P j).eval t1) - energy A l n (fun j => (P j).eval t0))
      ((t1 - t0) / 2 * ∑ m ∈ range N, w m * power A l n (fun j => (P j).eval (tauToT (arr coll m) t0 t1)) (fun j => (derivative (P j)).eval (tauToT (arr coll m) t0 t1)))) :
    r (mech A l g order n (v.x r1) - mech A l g order n (v.x r0)) ((t1 - t0) / 2 * ∑ m ∈ range N, w m * mechPower A l g order n (v.x (rx m)) (v.xd (rx m))) := by
  obtain ⟨P, G, h1, -⟩ := path_parts ho hN h
  rw [change fun j hj => ⟨(h1 j hj).2.2.2.1, (h1 j hj).2.2.2.2.2.1⟩, change (r0 := r1) (t0 := t1) fun j hj => ⟨(h1 j hj).2.2.2.2.1, (h1 j hj).2.2.2.2.2.2.1⟩]
  have e := gravity (t0 := t0) (t1 := t1) hw g fun j hj => ⟨(h1 j hj).2.1, (h1 j hj).2.2.1⟩
  have s : (t1 - t0) / 2 * ∑ m ∈ range N, w m * mechPower A l g order n (v.x (rx m)) (v.xd (rx m)) =
      (t1 - t0) / 2 * ∑ m ∈ range N, w m * power A l n (fun j => (P j).eval (tauToT (arr coll m) t0 t1)) (fun j => (derivative (P j)).eval (tauToT (arr coll m) t0 t1)) +
        (t1 - t0) / 2 * ∑ m ∈ range N, w m * ∑ j ∈ range n, g j * (P j).eval (tauToT (arr coll m) t0 t1) := by
    rw [← mul_add, ← sum_add_distrib]
    exact congrArg _ (sum_congr rfl fun m hm => by rw [rate fun j hj => (h1 j hj).2.2.2.2.2.2.2 m (mem_range.1 hm), mul_add])
  rw [s, ← e]
  have := hr _ _ (∑ j ∈ range n, g j * (G j).eval t1 - ∑ j ∈ range n, g j * (G j).eval t0) (hk P fun j hj => (h1 j hj).1)
  rwa [show ∀ a b c d : ℝ, a - b + (c - d) = a + c - (b + d) by intros; ring] at this

theorem Path.works (ho : 2 ≤ order) (hN : 1 ≤ N) (hw : ∀ p : ℝ[X], p.degree < (2 * N : ℕ) → ∑ i ∈ range N, w i * p.eval (arr coll i) = ∫ x in (-1 : ℝ)..1, p.eval x)
    (h : Path F v order n N coll r0 r1 rx ru t0 t1) : WorkIs F v order n N w r0 r1 rx ru (t1 - t0) := by
  intro A l g σ hσ
  rw [h.sum ho hN (r := Eq) (fun a b c e => by rw [e]) (fun p hp => hw p (hp.trans_le (by exact_mod_cast (by omega)))) fun P hP => gauss_energy hN hP hw t0 t1]
  obtain ⟨-, -, hF⟩ := h
  refine congrArg _ (sum_congr rfl fun m hm => ?_)
  obtain ⟨lam, hz⟩ := hF m (mem_range.1 hm)
  rw [hσ _ _ _ _ hz]

private theorem atMost {A : ℕ → ℕ → ℝ} {l g : ℕ → ℝ} {σ : (ℕ → ℝ) → (ℕ → ℝ) → ℝ} (hσ : WorkedAtMost F A l g order n σ) (h0 : ∀ i < N, 0 ≤ w i) (ht : t0 ≤ t1)
    (hF : ∀ m < N, ∃ lam, zero (F (v.x (rx m)) (v.xd (rx m)) (v.u (ru m)) lam)) :
    (t1 - t0) / 2 * ∑ m ∈ range N, w m * mechPower A l g order n (v.x (rx m)) (v.xd (rx m)) ≤ (t1 - t0) / 2 * ∑ m ∈ range N, w m * σ (v.x (rx m)) (v.u (ru m)) := by
  refine mul_le_mul_of_nonneg_left (sum_le_sum fun m hm => mul_le_mul_of_nonneg_left ?_ (h0 m (mem_range.1 hm))) (by linarith)
  obtain ⟨lam, hz⟩ := hF m (mem_range.1 hm)
  exact hσ _ _ _ _ hz

theorem Path.bounds (ho : 2 ≤ order) (hN : 1 ≤ N) (hw : ∀ p : ℝ[X], p.degree < (2 * N : ℕ) → ∑ i ∈ range N, w i * p.eval (arr coll i) = ∫ x in (-1 : ℝ)..1, p.eval x)
    (h0 : ∀ i < N, 0 ≤ w i) (ht : t0 ≤ t1) (h : Path F v order n N coll r0 r1 rx ru t0 t1) (A : ℕ → ℕ → ℝ) : WorkBounds F v order n N w r0 r1 rx ru (t1 - t0) A := by
  intro l g σ hσ
  rw [h.sum ho hN (r := Eq) (fun a b c e => by rw [e]) (fun p hp => hw p (hp.trans_le (by exact_mod_cast (by omega)))) fun P hP => gauss_energy hN hP hw t0 t1]
  obtain ⟨-, -, hF⟩ := h
  exact atMost hσ h0 ht hF

theorem Path.radau (ho : 2 ≤ order) (hN : 2 ≤ N) (hw : ∀ p : ℝ[X], p.degree < (2 * N - 1 : ℕ) → ∑ i ∈ range N, w i * p.eval (arr coll i) = ∫ x in (-1 : ℝ)..1, p.eval x)
    (hc : arr coll (N - 1) = 1) (h0 : ∀ i < N, 0 ≤ w i) (ht : t0 ≤ t1) (h : Path F v order n N coll r0 r1 rx ru t0 t1) {A : ℕ → ℕ → ℝ} (hA : Semidefinite A n) :
    WorkBounds F v order n N w r0 r1 rx ru (t1 - t0) A := by
  intro l g σ hσ
  refine (h.sum ho (by omega) (r := (· ≤ ·)) (fun a b c e => by linarith) (fun p hp => hw p (hp.trans_le (by exact_mod_cast (by omega)))) fun P hP =>
    radau_energy (by omega) hA hP hw hc).trans ?_
  obtain ⟨-, -, hF⟩ := h
  exact atMost hσ h0 ht hF
end

/-! ## The problems of the package -/

section
variable {S : String} {F : Dyn} {v : Vars} {n n_q n_u N order : ℕ} {w : ℕ → ℝ} {coll full : List ℝ} {r0 r1 last : ℕ} {rx ru : ℕ → ℕ} {t0 t1 : ℝ}

private theorem weights (hs : S ∈ ["LG", "LG2", "LGR_inv"]) (ho : 1 ≤ order) (hN : 1 ≤ N) : ∃ w, getWeights N S order "u" = .ok w := by
  simp only [List.mem_cons, List.not_mem_nil, or_false] at hs
  rcases hs with rfl | rfl | rfl
  · exact (gauss_weights (by decide) ho hN).imp fun _ h => h.1
  · exact (gauss_weights (by decide) ho hN).imp fun _ h => h.1
  · exact (radau_weights ho hN).imp fun _ h => h.1

private theorem measures {o : ℕ} (hs : S ∈ ["LG", "LG2", "LGR_inv"]) (ho : 2 ≤ order) (hN : 1 ≤ N) (hw : getWeights N S order "u" = .ok w) (hc : collPoints N S o = .ok coll)
    (h : Path F v order n N coll r0 r1 rx ru t0 t1) : Measures S F v order n N w r0 r1 rx ru t0 t1 := by
  by_cases hr : S = "LGR_inv"
  · subst hr
    have e : coll = negRev (LGR N) := by simp [collPoints] at hc; exact hc.symm
    subst e
    obtain ⟨w', a1, a2, a3⟩ := radau_weights (order := order) (by omega) hN
    obtain rfl := Except.ok.inj (a1.symm.trans hw)
    refine ⟨fun h => absurd rfl h, fun ht A hA => ?_⟩
    obtain ⟨h2, hA⟩ := hA.resolve_left fun h => h rfl
    exact h.radau ho h2 a3 (radau_last hN) a2 ht hA
  · have hs' : S ∈ ["LG", "LG_inv", "LG2"] ∧ coll = LG N := by
      simp only [List.mem_cons, List.not_mem_nil, or_false] at hs ⊢
      rcases hs with rfl | rfl | rfl
      · exact ⟨.inl rfl, by simp [collPoints] at hc; exact hc.symm⟩
      · exact ⟨.inr (.inr rfl), by simp [collPoints] at hc; exact hc.symm⟩
      · exact absurd rfl hr
    obtain ⟨hs', rfl⟩ := hs'
    obtain ⟨w', a1, a2, a3⟩ := gauss_weights (order := order) hs' (by omega) hN
    obtain rfl := Except.ok.inj (a1.symm.trans hw)
    exact ⟨fun _ => h.works ho hN a3, fun ht A _ => h.bounds ho hN a3 a2 ht A⟩

private theorem traj_path {deg : ℕ} (hdeg : deg ≤ order + N) (h : IsTrajectory v order n deg full t0 t1) (hc : Collocated F v full coll) (hsort : full.Pairwise (· < ·)) (hl : coll.length = N) (h0 : arr full 0 = -1)
    (hlast : last < full.length ∧ arr full last = 1) (hm : ∀ m < N, m + 1 < full.length ∧ arr full (m + 1) = arr coll m) : Path F v order n N coll 0 last (· + 1) id t0 t1 := by
  obtain ⟨Q, hQ⟩ := h
  have e1 : tauToT 1 t0 t1 = t1 := by unfold tauToT; ring
  have e2 : tauToT (-1) t0 t1 = t0 := by unfold tauToT; ring
  refine ⟨Q, fun j hj => ⟨(hQ j hj).1.trans_le (by exact_mod_cast hdeg), fun k hk => ⟨?_, ?_⟩, fun k hk m hm' => ?_⟩, fun m hm' => ?_⟩
  · have := (hQ j hj).2 k hk.le 0 (by omega)
    rwa [h0, e2] at this
  · have := (hQ j hj).2 k hk.le last hlast.1
    rwa [hlast.2, e1] at this
  · have := (hQ j hj).2 k hk (m + 1) (hm m hm').1
    rwa [(hm m hm').2] at this
  · obtain ⟨i, hi, he, hz⟩ := hc m (by omega)
    obtain rfl : i = m + 1 := distinct_arr hsort i hi (m + 1) (hm m hm').1 (he.trans (hm m hm').2.symm)
    exact ⟨_, hz⟩

private theorem wider (hs : S ∈ ["LG", "LGR_inv"]) : S ∈ ["LG", "LG2", "LGR_inv"] := by
  simp only [List.mem_cons, List.not_mem_nil, or_false] at hs ⊢
  tauto

/-- C196, bottom-up problems. -/
theorem C196_bu (hs : S ∈ ["LG", "LGR_inv"]) (ho : 2 ≤ order) (hN : 1 ≤ N) (h1 : 2 ≤ N ∨ S = "LGR_inv") (F : Dyn) (n_q : ℕ) (ht : t0 ≠ t1) :
    ∃ P w, buConstraints F S N order n_q t0 t1 = .ok P ∧ getWeights N S order "u" = .ok w ∧ ∀ v, P v → Measures S F v order n_q N w 0 (lastRow S N) (· + 1) id t0 t1 := by
  obtain ⟨b1, b2, -⟩ := bu_schemes hs hN
  have ho1 : 1 ≤ order := by omega
  obtain ⟨coll, full, P, k1, k2, hP, hv⟩ := C30_feasible b1 ho1 b2 (h1.imp_right fun e => by rw [e]; decide) F n_q ht
  obtain ⟨_, _, _, _, c1, -, -, c2, -, c3, -, c4, -, hl, -⟩ := constr_length b1 ho1 b2
  obtain rfl := Except.ok.inj (k1.symm.trans c1)
  obtain rfl := Except.ok.inj (k2.symm.trans c2)
  obtain ⟨w, hw⟩ := weights (wider hs) ho1 hN
  obtain ⟨r1, r2, r3, r4⟩ := bu_rows hs hN k1 hl c3
  exact ⟨P, w, hP, hw, fun v h => measures (wider hs) ho hN hw r1 (traj_path le_rfl ((hv v).1 h).1 ((hv v).1 h).2 c4 hl r2 r3 r4)⟩

/-- C196, top-down problems. -/
theorem C196_td (hs : S ∈ ["LG", "LGR_inv"]) (ho : 2 ≤ order) (hN : 1 ≤ N) (F : Dyn) (n_q : ℕ) (ht : t0 ≠ t1) :
    ∃ P w, tdConstraints F S N order n_q t0 t1 = .ok P ∧ getWeights N S order "u" = .ok w ∧ ∀ v q, P v q → Measures S F v order n_q N w 0 (lastRow S N) (· + 1) id t0 t1 := by
  obtain ⟨b1, b2, -⟩ := bu_schemes hs hN
  have ho1 : 1 ≤ order := by omega
  obtain ⟨coll, full, _, P, k1, k2, -, hP, hv, -⟩ := C31_feasible b1 ho1 b2 F n_q ht
  obtain ⟨_, _, _, _, c1, -, -, c2, -, c3, -, c4, -, hl, -⟩ := constr_length b1 ho1 b2
  obtain rfl := Except.ok.inj (k1.symm.trans c1)
  obtain rfl := Except.ok.inj (k2.symm.trans c3)
  obtain ⟨w, hw⟩ := weights (wider hs) ho1 hN
  obtain ⟨r1, r2, r3, r4⟩ := bu_rows hs hN k1 hl c3
  exact ⟨P, w, hP, hw, fun v q h => measures (wider hs) ho hN hw r1 (traj_path le_rfl ((hv v).1 ⟨q, h⟩).1 ((hv v).1 ⟨q, h⟩).2 c4 hl r2 r3 r4)⟩

/-- C196, node based problems with the scheme of Gauss that differentiates twice. -/
theorem C196_node (hN : 1 ≤ N) (F : Dyn) (n_q : ℕ) (ht : t0 ≠ t1) :
    ∃ P w, nodeConstraints F "LG2" N 2 n_q t0 t1 = .ok P ∧ getWeights N "LG2" 2 "u" = .ok w ∧ ∀ v, P v → Measures "LG2" F v 2 n_q N w 0 (lastRow "LG2" N) (· + 1) id t0 t1 := by
  obtain ⟨coll, n, full, P, k1, k2, k3, hP, hv⟩ := C73_second (scheme := "LG2") (by decide) hN F n_q ht
  obtain ⟨_, _, _, _, c1, c2, -, c4, -, -, hsort, hf0, hfl, -, hl, hflen, -, hdyn, -⟩ := node_rows (scheme := "LG2") (by decide) hN
  obtain rfl := Except.ok.inj (k1.symm.trans c1)
  obtain rfl := Except.ok.inj (k2.symm.trans c2)
  obtain rfl := Except.ok.inj (k3.symm.trans c4)
  have e : n = N + 2 := by simp [nColToNNodes, gaussLike, gaussInv_eq, gauss2_eq, radauLike, radauInv_eq, lobatoLike, otherSchemes] at k2; omega
  have e' : full.length = N + 2 := by rw [hflen, e, if_neg (by decide)]
  rw [e', show N + 2 - 1 = lastRow "LG2" N by simp [lastRow]] at hfl
  obtain ⟨w, hw⟩ := weights (S := "LG2") (order := 2) (by decide) (by norm_num) hN
  refine ⟨P, w, hP, hw, fun v h => measures (by decide) le_rfl hN hw k1 (traj_path (by omega) ((hv v).1 h).1 ((hv v).1 h).2 hsort hl hf0 ⟨by simp [lastRow, e'], hfl⟩ fun m hm => ?_)⟩
  have := hdyn m hm
  rwa [show i0 "LG2" = 1 by decide, add_comm] at this
end

/-! ## Several segments -/

section
variable {S : String} {F : Dyn} {n_q n_u order : ℕ} {points : List ℕ} {ext : List ℝ}

/-- In every segment the work is measured from one knot to the next. -/
def SegMeasures (S : String) (F : Dyn) (v : Vars) (order n : ℕ) (points : List ℕ) (ext : List ℝ) : Prop :=
  ∀ s < points.length, ∃ w, getWeights (points.getD s 0) S order "u" = .ok w ∧
    Measures S F v order n (points.getD s 0) w (knotRow points s) (knotRow points (s + 1)) (colRow points s) (colRow points s) (ext.getD s 0) (ext.getD (s + 1) 0)

private theorem seg_path {v : Vars} {coll : ℕ → List ℝ} {s : ℕ} {Q : ℕ → ℝ[X]} (hs : s < points.length) (h : SegPoly v order n_q points coll (fun s => ext.getD s 0) s Q) (hc : PhCollocated F v points) :
    Path F v order n_q (points.getD s 0) (coll (points.getD s 0)) (knotRow points s) (knotRow points (s + 1)) (colRow points s) (colRow points s) (ext.getD s 0) (ext.getD (s + 1) 0) :=
  ⟨Q, h, fun m hm => ⟨_, hc s hs m hm⟩⟩

/-- C196, bottom-up problems with several segments. -/
theorem C196_segments_bu (hs : S ∈ ["LG", "LGR_inv"]) (ho : 2 ≤ order) (h0 : points ≠ []) (hN : ∀ p ∈ points, 1 ≤ p) (h1 : (∀ p ∈ points, 2 ≤ p) ∨ S = "LGR_inv") (F : Dyn) (n_q n_u : ℕ)
    (hl : ext.length = points.length + 1) (ht : ∀ s < points.length, ext.getD s 0 ≠ ext.getD (s + 1) 0) :
    ∃ P, phConstraints F .bu S order n_q n_u points ext = .ok P ∧ ∀ v q, P v q → SegMeasures S F v order n_q points ext := by
  have hN' : ∀ p ∈ points, minPoints S ≤ p := fun p hp => (bu_schemes hs (hN p hp)).2.1
  obtain ⟨b1, -⟩ := bu_schemes hs le_rfl
  have ho1 : 1 ≤ order := by omega
  obtain ⟨coll, hc⟩ := colls (order := order) (bu_imp b1).1 ho1 hN'
  obtain ⟨P, hP, hv⟩ := C99_feasible b1 ho1 F n_q n_u h0 hN' (h1.imp_right fun e => by rw [e]; decide) hc hl ht
  refine ⟨P, hP, fun v q h s hs' => ?_⟩
  obtain ⟨⟨Q, k1⟩, -, k3, -⟩ := (hv v q).1 h
  have hm := hN _ (seg_mem hs')
  obtain ⟨w, hw⟩ := weights (wider hs) ho1 hm
  exact ⟨w, hw, measures (wider hs) ho hm hw (hc _ (seg_mem hs')) (seg_path hs' (k1 s hs').1 k3)⟩

/-- C196, top-down problems with several segments. -/
theorem C196_segments_td (hs : S ∈ ["LG", "LGR_inv"]) (ho : 2 ≤ order) (h0 : points ≠ []) (hN : ∀ p ∈ points, 1 ≤ p) (F : Dyn) (n_q n_u : ℕ)
    (hl : ext.length = points.length + 1) (ht : ∀ s < points.length, ext.getD s 0 ≠ ext.getD (s + 1) 0) :
    ∃ P, phConstraints F .td S order n_q n_u points ext = .ok P ∧ ∀ v q, P v q → SegMeasures S F v order n_q points ext := by
  have hN' : ∀ p ∈ points, minPoints S ≤ p := fun p hp => (bu_schemes hs (hN p hp)).2.1
  obtain ⟨b1, -⟩ := bu_schemes hs le_rfl
  have ho1 : 1 ≤ order := by omega
  obtain ⟨coll, hc⟩ := colls (order := order) (bu_imp b1).1 ho1 hN'
  obtain ⟨P, hP, hv⟩ := C100_feasible b1 ho1 F n_q n_u h0 hN' hc hl ht
  refine ⟨P, hP, fun v q h s hs' => ?_⟩
  obtain ⟨⟨Q, k1⟩, -, k3, -⟩ := (hv v).1 ⟨q, h⟩
  have hm := hN _ (seg_mem hs')
  obtain ⟨w, hw⟩ := weights (wider hs) ho1 hm
  exact ⟨w, hw, measures (wider hs) ho hm hw (hc _ (seg_mem hs')) (seg_path hs' (k1 s hs').1 k3)⟩

/-- C196: without work the mechanical energy is the same in all the knots. -/
theorem C196_conserved {v : Vars} {n : ℕ} (hs : S ≠ "LGR_inv") {A : ℕ → ℕ → ℝ} {l g : ℕ → ℝ} (hF : Worked F A l g order n fun _ _ => 0) (h : SegMeasures S F v order n points ext) {s : ℕ} (hs' : s ≤ points.length) :
    mech A l g order n (v.x (knotRow points s)) = mech A l g order n (v.x 0) := by
  induction s with
  | zero => simp [knotRow]
  | succ s ih =>
    obtain ⟨w, -, hk, -⟩ := h s (by omega)
    have := hk hs A l g _ hF
    simp only [mul_zero, sum_const_zero] at this
    rw [← ih (by omega)]
    linarith
end

/-! ## Examples -/

/-- A ball in a uniform gravity with a force `u` and friction `c`. -/
def ball (grav c : ℝ) : Dyn := fun x xd u _ => [xd 0 - x 1, xd 1 + grav + c * x 1 - u 0]

theorem ball_worked (grav c : ℝ) : Worked (ball grav c) (fun _ _ => 1 / 2) (fun _ => 0) (fun _ => grav) 2 1 fun x u => u 0 * x 1 - c * x 1 ^ 2 := by
  intro x xd u lam h
  simp only [zero, ball, List.mem_cons, List.not_mem_nil, or_false, forall_eq_or_imp, forall_eq] at h
  simp [mechPower, power]
  have h2 : xd 1 = u 0 - grav - c * x 1 := by linarith [h.2]
  rw [h2]
  ring

theorem ball_atMost {grav c : ℝ} (hc : 0 ≤ c) : WorkedAtMost (ball grav c) (fun _ _ => 1 / 2) (fun _ => 0) (fun _ => grav) 2 1 fun x u => u 0 * x 1 := by
  intro x xd u lam h
  rw [ball_worked grav c x xd u lam h]
  nlinarith [mul_nonneg hc (sq_nonneg (x 1))]

/-- The work of the force on the ball in a bottom-up problem of second order. -/
example : ∃ P w, buConstraints (ball 9.8 0) "LG" 3 2 1 0 5 = .ok P ∧ getWeights 3 "LG" 2 "u" = .ok w ∧ ∀ v, P v →
    v.x 4 1 ^ 2 / 2 + 9.8 * v.x 4 0 - (v.x 0 1 ^ 2 / 2 + 9.8 * v.x 0 0) = 5 / 2 * ∑ m ∈ range 3, w m * (v.u m 0 * v.x (m + 1) 1) := by
  obtain ⟨P, w, hP, hw, hv⟩ := C196_bu (S := "LG") (N := 3) (order := 2) (t0 := 0) (t1 := 5) (by decide) le_rfl (by norm_num) (.inl (by norm_num)) (ball 9.8 0) 1 (by norm_num)
  refine ⟨P, w, hP, hw, fun v h => ?_⟩
  have := (hv v h).1 (by decide) _ _ _ _ (ball_worked 9.8 0)
  simp [mech, energy, lastRow] at this ⊢
  linarith

/-- With friction and Radau the ball that nothing pushes gains no energy. -/
example : ∃ P w, tdConstraints (ball 9.8 1) "LGR_inv" 2 2 1 0 5 = .ok P ∧ getWeights 2 "LGR_inv" 2 "u" = .ok w ∧ ∀ v q, P v q → (∀ m, v.u m 0 = 0) →
    v.x 2 1 ^ 2 / 2 + 9.8 * v.x 2 0 ≤ v.x 0 1 ^ 2 / 2 + 9.8 * v.x 0 0 := by
  obtain ⟨P, w, hP, hw, hv⟩ := C196_td (S := "LGR_inv") (N := 2) (order := 2) (t0 := 0) (t1 := 5) (by decide) le_rfl (by norm_num) (ball 9.8 1) 1 (by norm_num)
  refine ⟨P, w, hP, hw, fun v q h hu => ?_⟩
  have := (hv v q h).2 (by norm_num) (fun _ _ => 1 / 2) (.inr ⟨le_rfl, fun x => by simp; nlinarith [sq_nonneg (x 0)]⟩) (fun _ => 0) _ _ (ball_atMost zero_le_one)
  simp [mech, energy, lastRow, hu] at this
  linarith

example : ([2, 3] : List ℕ) ≠ [] ∧ (∀ p ∈ [2, 3], 2 ≤ p) ∧ (∀ s < 2, ([0, 1, 4] : List ℝ).getD s 0 ≠ ([0, 1, 4] : List ℝ).getD (s + 1) 0) := by
  refine ⟨by simp, by simp, fun s hs => ?_⟩
  rcases (by omega : s = 0 ∨ s = 1) with rfl | rfl <;> norm_num

/-- C196 is about uniform forces of position: in a top-down problem of second order with one point a free spring does not keep its energy, whose double goes here from 5 to 9. -/
theorem C196_spring_refuted : ∃ P v q, tdConstraints (spring 0) "LG" 1 2 1 (-1) 1 = .ok P ∧ P v q ∧ v.u 0 0 = 0 ∧
    v.x 0 0 ^ 2 + v.x 0 1 ^ 2 = 5 ∧ v.x 2 0 ^ 2 + v.x 2 1 ^ 2 = 9 := by
  obtain ⟨coll, full, _, P, k1, k2, -, hP, hv, -⟩ := C31_feasible (scheme := "LG") (order := 2) (N := 1) (by decide) (by norm_num) (by decide) (spring 0) 1 (show (-1 : ℝ) ≠ 1 by norm_num)
  obtain ⟨_, _, _, _, c1, -, -, -, -, c3, -, c4, -, hl, -⟩ := constr_length (scheme := "LG") (order := 2) (N := 1) (by decide) (by norm_num) (by decide)
  obtain rfl := Except.ok.inj (k1.symm.trans c1)
  obtain rfl := Except.ok.inj (k2.symm.trans c3)
  obtain ⟨r1, r2, r3, r4⟩ := bu_rows (by decide) le_rfl k1 hl c3
  obtain ⟨a, rfl⟩ : ∃ a, coll = [a] := List.length_eq_one_iff.1 hl
  have e : full = [-1, a, 1] := by
    simp [tdConstructionPoints, k1, gaussLike, bind, Except.bind, pure, Except.pure] at c3
    exact c3.symm
  subst e
  obtain ⟨w, -, -, hw⟩ := gauss_weights (S := "LG") (order := 2) (N := 1) (by decide) (by norm_num) le_rfl
  have ea : LG 1 = [a] := by simpa [collPoints] using r1
  have z : a = 0 := by
    have w1 := hw 1 (by rw [degree_one]; norm_num)
    have w2 := hw X (by rw [degree_X]; norm_num)
    simp [ea, arr] at w1 w2
    rcases w2 with h | h
    · rw [h] at w1; norm_num at w1
    · exact h
  subst z
  refine ⟨P, ⟨fun i j => if j = 0 then -2 + ((i : ℝ) - 1) + ((i : ℝ) - 1) ^ 2 else 1 + 2 * ((i : ℝ) - 1), fun i j => if j = 0 then 1 + 2 * ((i : ℝ) - 1) else 2, fun _ _ => 0, fun _ _ => 0⟩, ?_⟩
  suffices h : ∃ q, P _ q from h.imp fun q hq => ⟨hP, hq, rfl, by norm_num, by norm_num⟩
  refine (hv ⟨fun i j => if j = 0 then -2 + ((i : ℝ) - 1) + ((i : ℝ) - 1) ^ 2 else 1 + 2 * ((i : ℝ) - 1), fun i j => if j = 0 then 1 + 2 * ((i : ℝ) - 1) else 2, fun _ _ => 0, fun _ _ => 0⟩).2
    ⟨⟨fun _ => C (-2) + X + X ^ 2, fun j hj => ⟨?_, fun k hk i hi => ?_⟩⟩, fun m hm => ?_⟩
  · have : (C (-2) + X + X ^ 2 : ℝ[X]).natDegree ≤ 2 := by compute_degree
    exact lt_of_le_of_lt degree_le_natDegree (by exact_mod_cast (by omega : (C (-2) + X + X ^ 2 : ℝ[X]).natDegree < 2 + 1))
  · obtain rfl : j = 0 := by omega
    have t : tauToT (arr [-1, 0, 1] i) (-1) 1 = (i : ℝ) - 1 := by
      rcases (by simp at hi; omega : i = 0 ∨ i = 1 ∨ i = 2) with rfl | rfl | rfl <;> norm_num [tauToT, arr]
    rw [t]
    rcases (by omega : k = 0 ∨ k = 1 ∨ k = 2) with rfl | rfl | rfl <;> simp [Vars.lev] <;> norm_num
  · obtain rfl : m = 0 := by simpa using hm
    refine ⟨1, by simp, by simp [arr], ?_⟩
    simp [zero, spring]

end Chords.Work
