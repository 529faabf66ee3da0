import Verif.Props.Together

/-! # C199: parts of equispaced motions are motions, and parts of best motions are best -/

namespace Chords.Parts
open Finset Chords.BuTd Chords.Equi Chords.Problem Chords.Spec

/-- The rows from `k` on. -/
def drop (k : ℕ) (v : Vars) : Vars := ⟨fun i => v.x (k + i), fun i => v.xd (k + i), fun i => v.u (k + i), fun i => v.lam (k + i)⟩

/-- The instant after `k` of `N` steps. -/
noncomputable def instant (t0 t1 : ℝ) (N k : ℕ) : ℝ := t0 + (t1 - t0) * k / N

private theorem lt_add {m n : ℕ} {R : ℕ → Prop} : (∀ j < m + n, R j) ↔ (∀ j < m, R j) ∧ ∀ j < n, R (m + j) := by
  constructor
  · exact fun h => ⟨fun j hj => h _ (by omega), fun j hj => h _ (by omega)⟩
  · rintro ⟨h1, h2⟩ j hj
    by_cases hA : j < m
    · exact h1 j hA
    · have := h2 (j - m) (by omega)
      rwa [show m + (j - m) = j by omega] at this

private theorem le_add {m n : ℕ} {R : ℕ → Prop} : (∀ j < m + n + 1, R j) ↔ (∀ j < m + 1, R j) ∧ ∀ j < n + 1, R (m + j) := by
  constructor
  · exact fun h => ⟨fun j hj => h _ (by omega), fun j hj => h _ (by omega)⟩
  · rintro ⟨h1, h2⟩ j hj
    by_cases hA : j < m
    · exact h1 j (by omega)
    · have := h2 (j - m) (by omega)
      rwa [show m + (j - m) = j by omega] at this

/-- C199: the constraints of a problem of `M + N` steps are those of the first `M` steps and those of the last `N` steps, for every scheme and order, also
those that raise an error. -/
theorem C199_constraints (F : Dyn) (scheme : String) {M N : ℕ} (hM : 0 < M) (hN : 0 < N) (order n_q n_u : ℕ) (t0 t1 : ℝ) :
    equiConstraints F scheme (M + N) order n_q n_u t0 t1 = (do
      let P ← equiConstraints F scheme M order n_q n_u t0 (instant t0 t1 (M + N) M)
      let Q ← equiConstraints F scheme N order n_q n_u (instant t0 t1 (M + N) M) t1
      return fun v c => P v c ∧ Q (drop M v) (drop M c)) := by
  have m0 : (0 : ℝ) < M := by exact_mod_cast hM
  have n0 : (0 : ℝ) < N := by exact_mod_cast hN
  have e1 : (instant t0 t1 (M + N) M - t0) / M = (t1 - t0) / ((M + N : ℕ) : ℝ) := by
    unfold instant
    push_cast
    field_simp
    ring
  have e2 : (t1 - instant t0 t1 (M + N) M) / N = (t1 - t0) / ((M + N : ℕ) : ℝ) := by
    unfold instant
    push_cast
    field_simp
    ring
  unfold equiConstraints
  cases h : restrTable scheme order with
  | error e => rfl
  | ok f =>
    refine congrArg Except.ok (funext fun v => funext fun c => propext ?_)
    dsimp only
    rw [e1, e2]
    obtain ⟨dt, -⟩ : ∃ d, d = (t1 - t0) / ((M + N : ℕ) : ℝ) := ⟨_, rfl⟩
    rw [lt_add, le_add]
    simp only [lt_add (m := M) (n := N)]
    constructor
    · rintro ⟨⟨a, a'⟩, ⟨b, b'⟩, d⟩
      exact ⟨⟨a, b, fun hs => ⟨(d hs).1.1, fun hp => ((d hs).2 hp).1⟩⟩, a', b', fun hs => ⟨(d hs).1.2, fun hp => ((d hs).2 hp).2⟩⟩
    · rintro ⟨⟨a, b, d⟩, a', b', d'⟩
      exact ⟨⟨a, a'⟩, ⟨b, b'⟩, fun hs => ⟨⟨(d hs).1, (d' hs).1⟩, fun hp => ⟨(d hs).2 hp, (d' hs).2 hp⟩⟩⟩

/-! ## The cost -/

private theorem ends (f : ℕ → ℝ) {N : ℕ} (hN : 0 < N) : ∑ i ∈ Ico 0 (N + 1), f i + ∑ i ∈ Ico 1 N, f i = ∑ i ∈ range N, (f i + f (i + 1)) := by
  obtain ⟨k, rfl⟩ : ∃ k, N = k + 1 := ⟨N - 1, by omega⟩
  rw [sum_add_distrib, Nat.Ico_zero_eq_range, sum_range_succ _ (k + 1), sum_range_succ (fun i => f (i + 1)), sum_Ico_eq_sum_range]
  simp only [Nat.add_sub_cancel, add_comm 1]
  ring

/-- C199: the cost is the sum of the costs of both parts; `h` is the length of the steps. -/
theorem C199_cost {m : ℕ} (scheme : String) (h : ℝ) {M N : ℕ} (hM : 0 < M) (hN : 0 < N) (a : Costs.Controls m) :
    Costs.uSqCost scheme (h * (M + N : ℕ)) (M + N) a = Costs.uSqCost scheme (h * M) M a +
      Costs.uSqCost scheme (h * N) N ⟨fun i => a.u (M + i), fun i => a.u_c (M + i), fun i => a.u_j (M + i)⟩ := by
  have m0 : (M : ℝ) ≠ 0 := by exact_mod_cast hM.ne'
  have n0 : (N : ℝ) ≠ 0 := by exact_mod_cast hN.ne'
  have s0 : ((M + N : ℕ) : ℝ) ≠ 0 := by exact_mod_cast (by omega : M + N ≠ 0)
  have cancel : ∀ (k : ℕ) (r : ℝ) (s : Fin m → ℝ), (k : ℝ) ≠ 0 → h * k * ∑ j, s j / (r * k) = h * ∑ j, s j / r := by
    intro k r s hk
    rw [← sum_div, ← sum_div]
    by_cases hr : r = 0
    · simp [hr]
    · field_simp
  have e : ∀ (f : ℕ → Fin m → ℝ) j, ∑ i ∈ Ico 0 (M + N + 1), f i j + ∑ i ∈ Ico 1 (M + N), f i j =
      (∑ i ∈ Ico 0 (M + 1), f i j + ∑ i ∈ Ico 1 M, f i j) + (∑ i ∈ Ico 0 (N + 1), f (M + i) j + ∑ i ∈ Ico 1 N, f (M + i) j) := fun f j => by
    rw [ends (fun i => f i j) (by omega), ends (fun i => f i j) hM, ends (fun i => f (M + i) j) hN, sum_range_add]
    rfl
  have e0 : ∀ (f : ℕ → Fin m → ℝ) j, ∑ i ∈ Ico 0 (M + N), f i j = ∑ i ∈ Ico 0 M, f i j + ∑ i ∈ Ico 0 N, f (M + i) j := fun f j => by
    simp only [Nat.Ico_zero_eq_range, sum_range_add]
  have e1 : ∀ (f : ℕ → Fin m → ℝ) j, ∑ i ∈ Ico 1 (M + N + 1), f i j = ∑ i ∈ Ico 1 (M + 1), f i j + ∑ i ∈ Ico 1 (N + 1), f (M + i) j := fun f j => by
    simp only [sum_Ico_eq_sum_range, Nat.add_sub_cancel, sum_range_add]
    simp only [add_left_comm]
  unfold Costs.uSqCost Costs.sum2 Costs.sum1 Costs.sqArr
  split
  · split <;> split <;> dsimp only <;> simp only [Nat.add_sub_cancel] <;> rw [cancel _ _ _ s0, cancel _ _ _ m0, cancel _ _ _ n0, ← mul_add, ← sum_add_distrib]
    all_goals refine congrArg _ (sum_congr rfl fun j _ => ?_)
    all_goals first
      | (rw [add_assoc, e (fun i j => a.u i j ^ 2), e0 (fun i j => a.u_c i j ^ 2)]; ring)
      | (rw [add_assoc, e (fun i j => a.u i j ^ 2), e0 (fun i j => a.u_j i j ^ 2)]; ring)
      | (rw [e0 (fun i j => a.u i j ^ 2), e1 (fun i j => a.u i j ^ 2), e0 (fun i j => a.u_c i j ^ 2)]; ring)
      | (rw [e0 (fun i j => a.u i j ^ 2), e1 (fun i j => a.u i j ^ 2), e0 (fun i j => a.u_j i j ^ 2)]; ring)
  · dsimp only
    simp only [Nat.add_sub_cancel]
    rw [cancel _ _ _ s0, cancel _ _ _ m0, cancel _ _ _ n0, ← mul_add, ← sum_add_distrib]
    refine congrArg _ (sum_congr rfl fun j _ => ?_)
    rw [e (fun i j => a.u i j ^ 2)]
    ring

/-! ## The principle of optimality -/

/-- The controls of the problem, for the schemes whose cost takes the controls of the centres as they are: all but `hsj_parab_mod`, whose cost uses further
variables (`u_j`). -/
def controls (m : ℕ) (v c : Vars) : Costs.Controls m := ⟨fun i j => v.u i j, fun i j => c.u i j, fun i j => c.u i j⟩

/-- The rows `r` of both are the same. -/
def SameRow (r r' : ℕ) (v w : Vars) : Prop := v.x r = w.x r' ∧ v.xd r = w.xd r' ∧ v.u r = w.u r' ∧ v.lam r = w.lam r'

/-- The best trajectory of `N` steps with the ends of `v`. -/
def BestBetween (P : Vars → Vars → Prop) (cost : Vars → Vars → ℝ) (N : ℕ) (v c : Vars) : Prop :=
  P v c ∧ ∀ w d, P w d → SameRow 0 0 v w → SameRow N N v w → cost v c ≤ cost w d

private theorem constraints_local {F : Dyn} {scheme : String} {M order n_q n_u : ℕ} {t0 t1 : ℝ} {P : Vars → Vars → Prop} (hP : equiConstraints F scheme M order n_q n_u t0 t1 = .ok P)
    {v w c d : Vars} (hv : ∀ i ≤ M, SameRow i i v w) (hc : ∀ i < M, SameRow i i c d) (h : P v c) : P w d := by
  unfold equiConstraints at hP
  cases hf : restrTable scheme order with
  | error e =>
    rw [hf] at hP
    exact absurd hP nofun
  | ok f =>
    rw [hf] at hP
    obtain rfl := Except.ok.inj hP
    have l : ∀ i ≤ M, ∀ p j, w.lev order n_q p i j = v.lev order n_q p i j := fun i hi p j => by unfold Vars.lev; rw [(hv i hi).1, (hv i hi).2.1]
    have l' : ∀ i < M, ∀ p j, d.lev order n_q p i j = c.lev order n_q p i j := fun i hi p j => by unfold Vars.lev; rw [(hc i hi).1, (hc i hi).2.1]
    obtain ⟨a, b, e⟩ := h
    refine ⟨fun ii hi j hj p hp => ?_, fun ii hi => ?_, fun hs => ⟨fun ii hi => ⟨fun j hj p hp => ?_, ?_⟩, fun hp ii hi m hm => ?_⟩⟩
    · simp only [l ii hi.le, l (ii + 1) hi, l' ii hi]
      exact a ii hi j hj p hp
    · obtain ⟨h1, h2, h3, h4⟩ := hv ii (by omega)
      rw [← h1, ← h2, ← h3, ← h4]
      exact b ii hi
    · simp only [l ii hi.le, l (ii + 1) hi, l' ii hi]
      exact ((e hs).1 ii hi).1 j hj p hp
    · obtain ⟨h1, h2, h3, h4⟩ := hc ii hi
      rw [← h1, ← h2, ← h3, ← h4]
      exact ((e hs).1 ii hi).2
    · rw [← (hc ii hi).2.2.1, ← (hv ii hi.le).2.2.1, ← (hv (ii + 1) hi).2.2.1]
      exact (e hs).2 hp ii hi m hm

private theorem cost_local (scheme : String) (T : ℝ) {M m : ℕ} {v w c d : Vars} (hv : ∀ i ≤ M, SameRow i i v w) (hc : ∀ i < M, SameRow i i c d) :
    Costs.uSqCost scheme T M (controls m v c) = Costs.uSqCost scheme T M (controls m w d) := by
  have k1 : ∀ s t, t ≤ M + 1 → ∀ j, Costs.sum1 (Costs.sqArr (controls m v c).u) s t j = Costs.sum1 (Costs.sqArr (controls m w d).u) s t j := fun s t ht j =>
    sum_congr rfl fun i hi => by
      have := (hv i (by have := (mem_Ico.1 hi).2; omega)).2.2.1
      simp [Costs.sqArr, controls, this]
  have k2 : ∀ s t, t ≤ M → ∀ j, Costs.sum1 (Costs.sqArr (controls m v c).u_c) s t j = Costs.sum1 (Costs.sqArr (controls m w d).u_c) s t j := fun s t ht j =>
    sum_congr rfl fun i hi => by
      have := (hc i (by have := (mem_Ico.1 hi).2; omega)).2.2.1
      simp [Costs.sqArr, controls, this]
  have k3 : ∀ v c, (controls m v c).u_j = (controls m v c).u_c := fun _ _ => rfl
  unfold Costs.uSqCost
  simp only [k3, ite_self, Nat.add_sub_cancel, k1 0 (M + 1) le_rfl, k1 1 M (by omega), k1 0 M (by omega), k1 1 (M + 1) le_rfl, k2 0 M le_rfl]

/-- First the rows of `v` up to `k`, then those of `w`. -/
private def glue (k : ℕ) (v w : Vars) : Vars := ⟨fun i => if i < k then v.x i else w.x (i - k), fun i => if i < k then v.xd i else w.xd (i - k),
  fun i => if i < k then v.u i else w.u (i - k), fun i => if i < k then v.lam i else w.lam (i - k)⟩

private theorem glue_drop (k : ℕ) (v w : Vars) : drop k (glue k v w) = w := by simp [drop, glue]

private theorem glue_lt {k i : ℕ} (h : i < k) (v w : Vars) : SameRow i i v (glue k v w) := by simp [SameRow, glue, h]

private theorem glue_at (k i : ℕ) (v w : Vars) : SameRow i (k + i) w (glue k v w) := by simp [SameRow, glue]

private theorem SameRow.trans {a b c : ℕ} {u v w : Vars} (h : SameRow a b u v) (h' : SameRow b c v w) : SameRow a c u w :=
  ⟨h.1.trans h'.1, h.2.1.trans h'.2.1, h.2.2.1.trans h'.2.2.1, h.2.2.2.trans h'.2.2.2⟩

private theorem SameRow.symm {a b : ℕ} {u v : Vars} (h : SameRow a b u v) : SameRow b a v u := ⟨h.1.symm, h.2.1.symm, h.2.2.1.symm, h.2.2.2.symm⟩

private theorem same_drop (k i : ℕ) (v : Vars) : SameRow (k + i) i v (drop k v) := ⟨rfl, rfl, rfl, rfl⟩

private theorem glue_le {k : ℕ} {v w : Vars} (h : SameRow k 0 v w) : ∀ i ≤ k, SameRow i i v (glue k v w) := fun i hi => by
  rcases hi.lt_or_eq with h' | rfl
  · exact glue_lt h' v w
  · exact h.trans (glue_at i 0 v w)

/-- C199: the last `N` steps of a best trajectory of `M + N` steps are a best trajectory between their ends, and so are the first `M`. -/
theorem C199_optimal {F : Dyn} {scheme : String} {M N : ℕ} (hM : 0 < M) (hN : 0 < N) {order n_q n_u : ℕ} {t0 t1 : ℝ} {P Q C : Vars → Vars → Prop}
    (hP : equiConstraints F scheme M order n_q n_u t0 (instant t0 t1 (M + N) M) = .ok P)
    (hQ : equiConstraints F scheme N order n_q n_u (instant t0 t1 (M + N) M) t1 = .ok Q) (hC : equiConstraints F scheme (M + N) order n_q n_u t0 t1 = .ok C) {v c : Vars}
    (h : BestBetween C (fun v c => Costs.uSqCost scheme (t1 - t0) (M + N) (controls n_u v c)) (M + N) v c) :
    BestBetween P (fun v c => Costs.uSqCost scheme (instant t0 t1 (M + N) M - t0) M (controls n_u v c)) M v c ∧
    BestBetween Q (fun v c => Costs.uSqCost scheme (t1 - instant t0 t1 (M + N) M) N (controls n_u v c)) N (drop M v) (drop M c) := by
  have m0 : (0 : ℝ) < M := by exact_mod_cast hM
  have n0 : (0 : ℝ) < N := by exact_mod_cast hN
  have cost : ∀ v c, Costs.uSqCost scheme (t1 - t0) (M + N) (controls n_u v c) = Costs.uSqCost scheme (instant t0 t1 (M + N) M - t0) M (controls n_u v c) +
      Costs.uSqCost scheme (t1 - instant t0 t1 (M + N) M) N (controls n_u (drop M v) (drop M c)) := fun v c => by
    have := C199_cost scheme ((t1 - t0) / ((M + N : ℕ) : ℝ)) hM hN (controls n_u v c)
    rw [show (t1 - t0) / ((M + N : ℕ) : ℝ) * ((M + N : ℕ) : ℝ) = t1 - t0 by push_cast; field_simp,
      show (t1 - t0) / ((M + N : ℕ) : ℝ) * M = instant t0 t1 (M + N) M - t0 by unfold instant; ring,
      show (t1 - t0) / ((M + N : ℕ) : ℝ) * N = t1 - instant t0 t1 (M + N) M by unfold instant; push_cast; field_simp; ring] at this
    exact this
  rw [C199_constraints F scheme hM hN, hP, hQ] at hC
  obtain rfl := Except.ok.inj hC
  obtain ⟨⟨h1, h2⟩, hb⟩ := h
  refine ⟨⟨h1, fun w d hw r0 r1 => ?_⟩, h2, fun w d hw r0 r1 => ?_⟩
  · have g := glue_le (r1.symm.trans (same_drop M 0 v))
    have g' : ∀ i < M, SameRow i i d (glue M d (drop M c)) := fun i hi => glue_lt hi _ _
    have := hb (glue M w (drop M v)) (glue M d (drop M c)) ⟨constraints_local hP g g' hw, by rw [glue_drop, glue_drop]; exact h2⟩
      (r0.trans (glue_lt hM _ _)) ((same_drop M N v).trans (glue_at M N _ _))
    beta_reduce at this ⊢
    rw [cost, cost, glue_drop, glue_drop, ← cost_local scheme _ g g'] at this
    exact le_of_add_le_add_right this
  · have g := glue_le (k := M) ((same_drop M 0 v).trans r0)
    have g' : ∀ i < M, SameRow i i c (glue M c d) := fun i hi => glue_lt hi _ _
    have := hb (glue M v w) (glue M c d) ⟨constraints_local hP g g' h1, by rw [glue_drop, glue_drop]; exact hw⟩
      (glue_lt hM _ _) (((same_drop M N v).trans r1).trans (glue_at M N _ _))
    beta_reduce at this ⊢
    rw [cost, cost, glue_drop, glue_drop, ← cost_local scheme _ g g'] at this
    exact le_of_add_le_add_left this

/-! ## Examples -/

/-- Five steps are two and three. -/
example : ∃ P Q C, equiConstraints Together.cart "hs" 2 2 1 1 0 2 = .ok P ∧ equiConstraints Together.cart "hs" 3 2 1 1 2 5 = .ok Q ∧
    equiConstraints Together.cart "hs" 5 2 1 1 0 5 = .ok C ∧ (∀ v c, C v c ↔ P v c ∧ Q (drop 2 v) (drop 2 c)) ∧
    ∀ v c, BestBetween C (fun v c => Costs.uSqCost "hs" (5 - 0) 5 (controls 1 v c)) 5 v c → BestBetween Q (fun v c => Costs.uSqCost "hs" (5 - 2) 3 (controls 1 v c)) 3 (drop 2 v) (drop 2 c) := by
  have i : instant 0 5 (2 + 3) 2 = 2 := by norm_num [instant]
  have t : ∃ f, restrTable "hs" 2 = .ok f := ⟨_, by simp [restrTable]; rfl⟩
  obtain ⟨f, hf⟩ := t
  have ok : ∀ N t0 t1, ∃ P, equiConstraints Together.cart "hs" N 2 1 1 t0 t1 = .ok P := fun N t0 t1 => by
    unfold equiConstraints
    rw [hf]
    exact ⟨_, rfl⟩
  obtain ⟨P, hP⟩ := ok 2 0 2
  obtain ⟨Q, hQ⟩ := ok 3 2 5
  have hC := C199_constraints Together.cart "hs" (M := 2) (N := 3) (by norm_num) (by norm_num) 2 1 1 0 5
  rw [i, hP, hQ] at hC
  refine ⟨P, Q, _, hP, hQ, hC, fun v c => Iff.rfl, fun v c h => ?_⟩
  have := C199_optimal (M := 2) (N := 3) (by norm_num) (by norm_num) (t0 := 0) (t1 := 5) (by rw [i]; exact hP) (by rw [i]; exact hQ) hC h
  rw [i] at this
  exact this.2

end Chords.Parts
