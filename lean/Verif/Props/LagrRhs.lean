import Verif.Model.LagrRhs
import Verif.Props.Names
import Mathlib.Algebra.BigOperators.Group.List.Basic
import Mathlib.Tactic.Ring
import Mathlib.Tactic.Linarith

/-! # C97: right hand sides from Lagrange equations -/

namespace Chords.Props
open Chords.LagrRhs Chords.Names Matrix

variable {n : ℕ}

/-- The symbols of the accelerations of `n` coordinates. -/
def Acc (n : ℕ) (s : Name) : Prop := ∃ j < n, s = indexed 'a' j

/-- Sums of products with one acceleration at most. -/
def AffineAcc (n : ℕ) (p : Poly) : Prop :=
  ∀ t ∈ p, (∀ s ∈ t.2, ¬Acc n s) ∨ ∃ j < n, ∃ r : List Name, t.2.Perm (indexed 'a' j :: r) ∧ ∀ s ∈ r, ¬Acc n s

/-- The same values for everything that is not an acceleration. -/
def SameRest (n : ℕ) (σ τ : Name → ℝ) : Prop := ∀ s, ¬Acc n s → σ s = τ s

private theorem idx_inj {a b : ℕ} (h : indexed 'a' a = indexed 'a' b) : a = b := by
  simp only [indexed, List.cons.injEq, true_and] at h
  have := congrArg (fun l => Nat.ofDigitChars 10 l 0) h
  simpa [Nat.ofDigitChars_ten_toDigits] using this

private theorem prod_same {σ τ : Name → ℝ} (h : SameRest n σ τ) {l : List Name} (hl : ∀ s ∈ l, ¬Acc n s) :
    (l.map σ).prod = (l.map τ).prod := by
  rw [List.map_congr_left fun s hs => h s (hl s hs)]

/-- Coefficient of one term. -/
private noncomputable def tc (σ : Name → ℝ) (a : Name) (t : ℝ × List Name) : ℝ :=
  if t.2.count a = 1 then t.1 * ((t.2.erase a).map σ).prod else 0

private theorem val_coeff (σ : Name → ℝ) (a : Name) (p : Poly) : val σ (coeff a p) = (p.map (tc σ a)).sum := by
  induction p with
  | nil => rfl
  | cons t p ih =>
    unfold coeff val at *
    by_cases h : t.2.count a = 1
    · simp only [List.filter_cons, h, decide_true, if_true, List.map_cons, List.sum_cons, ih]
      simp [tc, h, termVal]
    · simp only [List.filter_cons, h, decide_false, Bool.false_eq_true, if_false, List.map_cons, List.sum_cons, ih]
      simp [tc, h]

/-- What is left of one term. -/
private noncomputable def tr (n : ℕ) (σ : Name → ℝ) (t : ℝ × List Name) : ℝ :=
  termVal σ t - ∑ j : Fin n, σ (indexed 'a' j) * tc σ (indexed 'a' j) t

private theorem cMat_eq (eqs : Fin n → Poly) (σ : Name → ℝ) (i : Fin n) : cMat eqs σ i = ((eqs i).map (tr n σ)).sum := by
  unfold cMat
  generalize eqs i = p
  simp only [val_coeff]
  induction p with
  | nil => simp [val]
  | cons t p ih =>
    simp only [val, List.map_cons, List.sum_cons, mul_add, Finset.sum_add_distrib] at ih ⊢
    rw [← ih, tr]
    ring

private theorem term_facts {σ : Name → ℝ} {t : ℝ × List Name}
    (ht : (∀ s ∈ t.2, ¬Acc n s) ∨ ∃ j < n, ∃ r : List Name, t.2.Perm (indexed 'a' j :: r) ∧ ∀ s ∈ r, ¬Acc n s) :
    (∀ τ, SameRest n σ τ → tr n σ t = tr n τ t) ∧ ∀ τ, SameRest n σ τ → ∀ k < n, tc σ (indexed 'a' k) t = tc τ (indexed 'a' k) t := by
  rcases ht with ht | ⟨j, hj, r, hp, hr⟩
  · have hc : ∀ (ρ : Name → ℝ) k, k < n → tc ρ (indexed 'a' k) t = 0 := by
      intro ρ k hk
      have : t.2.count (indexed 'a' k) = 0 := List.count_eq_zero.2 fun h => ht _ h ⟨k, hk, rfl⟩
      simp [tc, this]
    have ht' : ∀ ρ, tr n ρ t = termVal ρ t := by
      intro ρ
      rw [tr, Finset.sum_eq_zero fun k _ => by rw [hc ρ k k.2, mul_zero], sub_zero]
    refine ⟨fun τ h => ?_, fun τ _ k hk => by rw [hc _ k hk, hc _ k hk]⟩
    rw [ht', ht', termVal, termVal, prod_same h ht]
  · have hnot : indexed 'a' j ∉ r := fun h => hr _ h ⟨j, hj, rfl⟩
    have hcount : ∀ k, k < n → t.2.count (indexed 'a' k) = if k = j then 1 else 0 := by
      intro k hk
      rw [hp.count_eq, List.count_cons]
      have h0 : r.count (indexed 'a' k) = 0 := List.count_eq_zero.2 fun h => hr _ h ⟨k, hk, rfl⟩
      rw [h0]
      by_cases hkj : k = j
      · simp [hkj]
      · have : indexed 'a' j ≠ indexed 'a' k := fun h => hkj (idx_inj h).symm
        simp [hkj, this]
    have herase : ∀ ρ : Name → ℝ, ((t.2.erase (indexed 'a' j)).map ρ).prod = (r.map ρ).prod := by
      intro ρ
      have := (hp.erase (indexed 'a' j))
      rw [List.erase_cons_head] at this
      exact (this.map ρ).prod_eq
    have hc : ∀ (ρ : Name → ℝ) k, k < n → tc ρ (indexed 'a' k) t = if k = j then t.1 * (r.map ρ).prod else 0 := by
      intro ρ k hk
      rw [tc, hcount k hk]
      by_cases hkj : k = j
      · subst hkj
        simp [herase]
      · simp [hkj]
    have hz : ∀ ρ, tr n ρ t = 0 := by
      intro ρ
      have hs : ∑ k : Fin n, ρ (indexed 'a' k) * tc ρ (indexed 'a' k) t = ρ (indexed 'a' j) * (t.1 * (r.map ρ).prod) := by
        rw [Finset.sum_eq_single (⟨j, hj⟩ : Fin n)]
        · rw [hc ρ j hj, if_pos rfl]
        · intro k _ hk
          have : k.1 ≠ j := fun h => hk (Fin.ext h)
          rw [hc ρ k k.2, if_neg this, mul_zero]
        · simp
      rw [tr, hs, termVal, (hp.map ρ).prod_eq, List.map_cons, List.prod_cons]
      ring
    refine ⟨fun τ _ => by rw [hz, hz], fun τ h k hk => ?_⟩
    rw [hc σ k hk, hc τ k hk, prod_same h hr]

/-- C97: for equations with products of one acceleration at most, as those of mechanical systems, the result depends on no acceleration, and the accelerations that it gives are
the only ones for which each equation equals its force. -/
theorem C97_solve {eqs : Fin n → Poly} (ha : ∀ i, AffineAcc n (eqs i)) {σ : Name → ℝ} {R : Fin n → ℝ} (h : lagrToRHS eqs σ = some R)
    {τ : Name → ℝ} (hs : SameRest n σ τ) :
    lagrToRHS eqs τ = some R ∧
      ((∀ i : Fin n, val τ (eqs i) = τ (indexed 'u' i)) ↔ ∀ i : Fin n, τ (indexed 'a' i) = R i) := by
  have hC : coeffMat eqs τ = coeffMat eqs σ := by
    ext i j
    simp only [coeffMat, Matrix.of_apply, val_coeff]
    rw [List.map_congr_left fun t ht => ((term_facts (ha i t ht)).2 τ hs j j.2).symm]
  have hc : cMat eqs τ = cMat eqs σ := by
    funext i
    rw [cMat_eq, cMat_eq, List.map_congr_left fun t ht => ((term_facts (ha i t ht)).1 τ hs).symm]
  have hu : (fun i : Fin n => τ (indexed 'u' i)) = fun i : Fin n => σ (indexed 'u' i) := by
    funext i
    refine (hs _ ?_).symm
    rintro ⟨j, -, h⟩
    simp [indexed] at h
  have hdet : IsUnit (coeffMat eqs σ).det := by
    by_contra hd
    rw [lagrToRHS, if_neg hd] at h
    cases h
  have hR : R = (coeffMat eqs σ)⁻¹ *ᵥ ((fun i : Fin n => σ (indexed 'u' i)) - cMat eqs σ) := by
    simp only [lagrToRHS, if_pos hdet, Option.some.injEq] at h
    exact h.symm
  refine ⟨?_, ?_⟩
  · rw [lagrToRHS, hC, hc, hu]
    exact h
  · have hval : ∀ i : Fin n, val τ (eqs i) = (coeffMat eqs σ *ᵥ fun j : Fin n => τ (indexed 'a' j)) i + cMat eqs σ i := by
      intro i
      rw [← hC, ← hc]
      simp only [cMat, mulVec, dotProduct, coeffMat, Matrix.of_apply]
      have : ∑ j : Fin n, val τ (coeff (indexed 'a' j) (eqs i)) * τ (indexed 'a' j) =
          ∑ j : Fin n, τ (indexed 'a' j) * val τ (coeff (indexed 'a' j) (eqs i)) :=
        Finset.sum_congr rfl fun j _ => mul_comm _ _
      rw [this]
      ring
    have hu' : ∀ i : Fin n, τ (indexed 'u' i) = σ (indexed 'u' i) := fun i => congrFun hu i
    constructor
    · intro he
      have h1 : coeffMat eqs σ *ᵥ (fun j : Fin n => τ (indexed 'a' j)) = (fun i : Fin n => σ (indexed 'u' i)) - cMat eqs σ := by
        funext i
        have := he i
        rw [hval, hu'] at this
        simp only [Pi.sub_apply]
        linarith
      intro i
      rw [hR, ← h1, Matrix.mulVec_mulVec, Matrix.nonsing_inv_mul _ hdet, Matrix.one_mulVec]
    · intro he i
      have h1 : (fun j : Fin n => τ (indexed 'a' j)) = R := funext he
      rw [hval, h1, hR, Matrix.mulVec_mulVec, Matrix.mul_nonsing_inv _ hdet, Matrix.one_mulVec, hu']
      simp

/-- C97: when no equation has the symbols `a_0, a_1, …`, as for coordinates called otherwise, there is no result. -/
theorem C97_names {eqs : Fin n → Poly} (hn : 0 < n) (h : ∀ i, ∀ t ∈ eqs i, ∀ s ∈ t.2, ¬Acc n s) (σ : Name → ℝ) :
    lagrToRHS eqs σ = none := by
  have h0 : coeffMat eqs σ = 0 := by
    ext i j
    simp only [coeffMat, Matrix.of_apply, val_coeff, Matrix.zero_apply]
    refine List.sum_eq_zero fun x hx => ?_
    obtain ⟨t, ht, rfl⟩ := List.mem_map.1 hx
    have : t.2.count (indexed 'a' j) = 0 := List.count_eq_zero.2 fun hm => h i t ht _ hm ⟨j, j.2, rfl⟩
    simp [tc, this]
  have : ¬IsUnit (coeffMat eqs σ).det := by
    have : Nonempty (Fin n) := ⟨⟨0, hn⟩⟩
    rw [h0, Matrix.det_zero]
    simp
  rw [lagrToRHS, if_neg this]

/-- C97 fails for a coordinate called `z`: its acceleration becomes `z_dot_dot` and the equation `z'' = u_0` has no result. -/
theorem C97_refuted [PyChars] : ∃ s, diffToSymb (.dyn ['z'] 2) = .ok s ∧ ∀ σ, lagrToRHS (fun _ : Fin 1 => [(1, [s])]) σ = none := by
  refine ⟨_, rfl, fun σ => C97_names (by omega) ?_ σ⟩
  intro i t ht s hs
  simp only [List.mem_singleton] at ht
  subst ht
  rintro ⟨j, -, rfl⟩
  simp [indexed, derivName] at hs

/-- The hypotheses of `C97_solve` hold of `2 a_0 + q_0 = u_0`, with the result `(u_0 - q_0) / 2`. -/
example : AffineAcc 1 [(2, [indexed 'a' 0]), (1, [indexed 'q' 0])] ∧
    ∃ R, lagrToRHS (fun _ : Fin 1 => [(2, [indexed 'a' 0]), (1, [indexed 'q' 0])]) (fun _ => 3) = some R := by
  have hd : IsUnit (coeffMat (fun _ : Fin 1 => [((2 : ℝ), [indexed 'a' 0]), (1, [indexed 'q' 0])]) fun _ => (3 : ℝ)).det := by
    have hne : indexed 'q' 0 ≠ indexed 'a' 0 := by simp [indexed]
    rw [Matrix.det_unique]
    simp [coeffMat, val_coeff, tc, hne]
  constructor
  · intro t ht
    simp only [List.mem_cons, List.not_mem_nil, or_false] at ht
    rcases ht with rfl | rfl
    · exact .inr ⟨0, by omega, [], List.Perm.refl _, by simp⟩
    · left
      intro s hs
      simp only [List.mem_singleton] at hs
      subst hs
      rintro ⟨j, -, h⟩
      simp [indexed] at h
  · exact ⟨_, by rw [lagrToRHS, if_pos hd]⟩

end Chords.Props
