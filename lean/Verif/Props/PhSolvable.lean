import Verif.Props.PhConv
import Verif.Props.Solvable
import Verif.Props.BuTdErr

/-! # C172: feasible points of segmented problems for given controls -/

namespace Chords.Conv
open Set Polynomial Chords.Points Chords.Spec Chords.Bary Chords.Gauss Chords.TimeScale Chords.BuTd Chords.PhScheme Chords.Props

/-- Collocation polynomials of a segment: a start, and a rule for the highest derivative at every point. -/
def SegSol {ι : Type} (M N : ℕ) (t : ℕ → ℝ) (t0 t1 : ℝ) (G : ℕ → (ℕ → ι → ℝ) → ι → ℝ) (x : ℕ → ι → ℝ) (R : ι → ℝ[X]) : Prop :=
  (∀ j, (R j).degree < (M + N : ℕ)) ∧ (∀ p < M, ∀ j, (derivative^[p] (R j)).eval t0 = x p j) ∧
    ∀ m < N, ∀ j, (derivative^[M] (R j)).eval (tauToT (t m) t0 t1) = G m (fun p j => (derivative^[p] (R j)).eval (tauToT (t m) t0 t1)) j

section
variable {ι : Type} [Fintype ι] {M N : ℕ} {t : ℕ → ℝ} {Λ t0 t1 L : ℝ} {G : ℕ → (ℕ → ι → ℝ) → ι → ℝ} {x : ℕ → ι → ℝ}

theorem seg_exists (hdis : Distinct N t) (hpts : ∀ m < N, t m ∈ Icc (-1 : ℝ) 1) (hΛ0 : 0 ≤ Λ) (hΛ : Leb N t Λ) (ht : t0 < t1) (hh : t1 - t0 ≤ 1 / 2) (hL : 0 ≤ L)
    (hhL : 4 * (t1 - t0) * (Λ * L) ≤ 1) (hG : ∀ m < N, ∀ ξ η d, Within M ξ η d → ∀ j, |G m ξ j - G m η j| ≤ L * d) : ∃ R, SegSol M N t t0 t1 G x R := by
  choose C hC1 hC2 hC3 using fun (e : Fin N × ι → ℝ) (j : ι) =>
    exists_motion ht.ne hdis M (fun p => x p j) fun m => if hm : m < N then e (⟨m, hm⟩, j) else 0
  have close : ∀ e e' : Fin N × ι → ℝ, ∀ p < M, ∀ j, ∀ s ∈ Icc t0 t1, |(derivative^[p] (C e j)).eval s - (derivative^[p] (C e' j)).eval s|
      ≤ (t1 - t0) * (2 * (Λ * dist e e')) := by
    intro e e' p hp j s hs
    have hd : 0 ≤ dist e e' := dist_nonneg
    have tw : Tower (fun k τ => (derivative^[k] (C e j)).eval (t0 + τ) - (derivative^[k] (C e' j)).eval (t0 + τ)) M (t1 - t0) := fun k hk s hs =>
      (tower_time (poly_tower (C e j) M (Icc t0 t1)) k hk s hs).sub (tower_time (poly_tower (C e' j) M (Icc t0 t1)) k hk s hs)
    have top : ∀ s ∈ Icc t0 t1, |(derivative^[M] (C e j)).eval s - (derivative^[M] (C e' j)).eval s| ≤ Λ * dist e e' := by
      intro s hs
      have hdeg : (derivative^[M] (C e j) - derivative^[M] (C e' j)).degree < N :=
        (degree_sub_le _ _).trans_lt (max_lt (derivative_degree (hC1 e j)) (derivative_degree (hC1 e' j)))
      have := hΛ.time ht hdeg hd (fun m hm => by
        rw [eval_sub, hC3 e j m hm, hC3 e' j m hm, dif_pos hm, dif_pos hm, ← Real.dist_eq]
        exact dist_le_pi_dist e e' _) hs
      rwa [eval_sub] at this
    obtain ⟨g1, g2⟩ := tower_err (δ := 0) (E := Λ * dist e e') tw (fun p hp => by simp [hC2 e j p hp, hC2 e' j p hp])
      (fun s hs => top _ ⟨by linarith [hs.1], by linarith [hs.2]⟩) (by linarith) hh le_rfl (by positivity)
    have := g2 p hp _ (g1 (p + 1) (by omega)) (s - t0) ⟨by linarith [hs.1], by linarith [hs.2]⟩
    simpa using this
  let Φ : (Fin N × ι → ℝ) → Fin N × ι → ℝ := fun e k => G k.1 (fun p j => (derivative^[p] (C e j)).eval (tauToT (t k.1) t0 t1)) k.2
  have hΦ : ContractingWith (1 / 2) Φ := by
    refine ⟨by norm_num, LipschitzWith.of_dist_le_mul fun e e' => ?_⟩
    rw [dist_pi_le_iff (by positivity)]
    rintro ⟨m, j⟩
    rw [Real.dist_eq]
    refine (hG m m.2 _ _ ((t1 - t0) * (2 * (Λ * dist e e'))) (fun p hp j => close e e' p hp j _ (time_of_tau ht (hpts m m.2))) j).trans ?_
    push_cast
    have := mul_le_mul_of_nonneg_right hhL (dist_nonneg (x := e) (y := e'))
    nlinarith
  obtain ⟨e, he⟩ : ∃ e, Φ e = e := ⟨_, hΦ.fixedPoint_isFixedPt⟩
  refine ⟨C e, hC1 e, fun p hp j => hC2 e j p hp, fun m hm j => ?_⟩
  rw [hC3 e j m hm, dif_pos hm]
  exact (congrFun he (⟨m, hm⟩, j)).symm

theorem seg_unique (hM : 1 ≤ M) (hpts : ∀ m < N, t m ∈ Icc (-1 : ℝ) 1) (hΛ0 : 0 ≤ Λ) (hΛ : Leb N t Λ) (ht : t0 < t1) (hh : t1 - t0 ≤ 1 / 2) (hL : 0 ≤ L)
    (hhL : 4 * (t1 - t0) * (Λ * L) ≤ 1) (hG : ∀ m < N, ∀ ξ η d, Within M ξ η d → ∀ j, |G m ξ j - G m η j| ≤ L * d) {R R' : ι → ℝ[X]}
    (h : SegSol M N t t0 t1 G x R) (h' : SegSol M N t t0 t1 G x R') : R = R' := by
  have hz : ∀ j, derivative^[M + N] (R' j) = 0 := by
    intro j
    rw [iterate_derivative_eq_zero]
    by_cases h0 : R' j = 0
    · rw [h0, natDegree_zero]; omega
    · exact (natDegree_lt_iff_degree_lt h0).2 (h'.1 j)
  have key := seg_err (M := M) (n := N) (N := N) (K := 0) (δ := 0) (R := R) (D := fun j k s => (derivative^[k] (R' j)).eval s) le_rfl hpts hΛ0 hΛ ht hh hL hhL h.1
    (fun j => poly_tower (R' j) (M + N) (Icc t0 t1)) le_rfl (fun j s _ => by simp [hz j]) le_rfl (fun p hp j => by simp [h.2.1 p hp j, h'.2.1 p hp j])
    (fun m hm d hd j => by
      rw [h.2.2 m hm j, h'.2.2 m hm j]
      exact hG m hm _ _ d hd j) 0 hM
  funext j
  have h0 : R j - R' j = 0 := by
    refine eq_zero_of_infinite_isRoot _ (Set.Infinite.mono (s := Icc t0 t1) (fun s hs => ?_) (Icc_infinite ht))
    have := key j s hs
    simp only [Function.iterate_zero, id, mul_zero, zero_mul, add_zero, abs_nonpos_iff] at this
    simpa [IsRoot] using this
  exact sub_eq_zero.1 h0
end

/-- Any values for the rows of the knots and of the collocation points. -/
theorem rows_decode {α : Type} (points : List ℕ) (kn : ℕ → α) (co : ℕ → ℕ → α) :
    ∃ f : ℕ → α, (∀ s, f (knotRow points s) = kn s) ∧ ∀ s, ∀ m < points.getD s 0, f (colRow points s m) = co s m := by
  have hsucc : ∀ s, knotRow points (s + 1) = knotRow points s + (points.getD s 0 + 1) := fun s => Finset.sum_range_succ _ _
  have hmono : StrictMono (knotRow points) := strictMono_nat_of_lt_succ fun s => by rw [hsucc]; omega
  obtain ⟨g, hg⟩ : ∃ g : ℕ → ℕ, g = fun r => Nat.findGreatest (fun s => knotRow points s ≤ r) r := ⟨_, rfl⟩
  have hgs : ∀ s r, knotRow points s ≤ r → r < knotRow points (s + 1) → g r = s := by
    intro s r h1 h2
    rw [hg]
    refine Nat.findGreatest_eq_iff.2 ⟨(hmono.id_le s).trans h1, fun _ => h1, fun n hn _ hle => ?_⟩
    have := hmono.monotone (show s + 1 ≤ n by omega)
    omega
  refine ⟨fun r => if r = knotRow points (g r) then kn (g r) else co (g r) (r - knotRow points (g r) - 1), fun s => ?_, fun s m hm => ?_⟩
  · simp only [hgs s (knotRow points s) le_rfl (hmono (by omega)), if_true]
  · have := hgs s (colRow points s m) (by unfold colRow; omega) (by rw [hsucc]; unfold colRow; omega)
    simp only [this]
    rw [if_neg (by unfold colRow; omega), show colRow points s m - knotRow points s - 1 = m by unfold colRow; omega]

/-- The start and the controls at the collocation points are given. -/
structure Given (order n_q n_u : ℕ) (points : List ℕ) (x0 : ℕ → ℕ → ℝ) (c : ℕ → ℕ → ℕ → ℝ) (v : Vars) : Prop where
  start : ∀ p < order, ∀ j < n_q, v.lev order n_q p 0 j = x0 p j
  controls : ∀ s < points.length, ∀ m < points.getD s 0, ∀ k < n_u, v.u (colRow points s m) k = c s m k

/-- All the states, their highest derivatives and the controls are the same, in all rows. -/
def SameRows (order n_q n_u : ℕ) (points : List ℕ) (v v' : Vars) : Prop :=
  ∀ r < points.sum + points.length + 1, (∀ p ≤ order, ∀ j < n_q, v.lev order n_q p r j = v'.lev order n_q p r j) ∧ ∀ k < n_u, v.u r k = v'.u r k


theorem rows_cover (points : List ℕ) {r : ℕ} (hr : r < points.sum + points.length + 1) :
    (∃ s ≤ points.length, r = knotRow points s) ∨ ∃ s < points.length, ∃ m < points.getD s 0, r = colRow points s m := by
  have hsucc : ∀ s, knotRow points (s + 1) = knotRow points s + (points.getD s 0 + 1) := fun s => Finset.sum_range_succ _ _
  have hall : ∀ l : List ℕ, knotRow l l.length = l.sum + l.length := by
    intro l
    induction l with
    | nil => rfl
    | cons p ps ih =>
      rw [List.length_cons, knotRow, Finset.sum_range_succ']
      have : ∑ i ∈ Finset.range ps.length, ((p :: ps).getD (i + 1) 0 + 1) = knotRow ps ps.length := rfl
      rw [this, ih]
      simp only [List.getD_cons_zero, List.sum_cons]
      omega
  have : ∀ n ≤ points.length, ∀ r ≤ knotRow points n, (∃ s ≤ n, r = knotRow points s) ∨ ∃ s < n, ∃ m < points.getD s 0, r = colRow points s m := by
    intro n
    induction n with
    | zero => intro _ r hr; exact .inl ⟨0, le_rfl, by simp only [knotRow, Finset.range_zero, Finset.sum_empty] at hr ⊢; omega⟩
    | succ n ih =>
      intro hn r hr
      rw [hsucc] at hr
      by_cases h1 : r ≤ knotRow points n
      · rcases ih (by omega) r h1 with ⟨s, hs, e⟩ | ⟨s, hs, e⟩
        · exact .inl ⟨s, by omega, e⟩
        · exact .inr ⟨s, by omega, e⟩
      · by_cases h2 : r = knotRow points (n + 1)
        · exact .inl ⟨n + 1, le_rfl, h2⟩
        · rw [hsucc] at h2
          exact .inr ⟨n, by omega, r - knotRow points n - 1, by omega, by unfold colRow; omega⟩
  exact this points.length le_rfl r (by rw [hall]; omega)

section
variable {F : Dyn} {order n_q n_u : ℕ} {points : List ℕ} {coll : ℕ → List ℝ} {T : ℕ → ℝ} {A : (ℕ → ℕ → ℝ) → (ℕ → ℝ) → ℕ → ℝ} {Λ L h : ℝ} {c : ℕ → ℕ → ℕ → ℝ}

private theorem rule_lip (hL : LipA A (fun _ => True) order n_q n_u L) (w : ℕ → ℝ) (ξ η : ℕ → Fin n_q → ℝ) (d : ℝ) (hw : Within order ξ η d) (j : Fin n_q) :
    |A (ext ξ) w j - A (ext η) w j| ≤ L * d :=
  hL _ _ _ _ d trivial trivial (fun p hp j hj => by rw [ext_eq _ hj, ext_eq _ hj]; exact hw p hp _) (fun _ _ => rfl) j j.2

private theorem sol_of {v : Vars} {x0 : ℕ → ℕ → ℝ} {s : ℕ} (hs : s < points.length) (hF : Solved F order n_q A) (hL : LipA A (fun _ => True) order n_q n_u L)
    (hc : PhCollocated F v points) (hg : Given order n_q n_u points x0 c v) {Q : ℕ → ℝ[X]} (hQ : SegPoly v order n_q points coll T s Q) :
    SegSol order (points.getD s 0) (arr (coll (points.getD s 0))) (T s) (T (s + 1)) (fun m ξ (j : Fin n_q) => A (ext ξ) (c s m) j)
      (fun p j => v.lev order n_q p (knotRow points s) j) (fun j => Q j) := by
  refine ⟨fun j => (hQ j j.2).1, fun p hp j => (((hQ j j.2).2.1 p hp).1).symm, fun m hm j => ?_⟩
  rw [← (hQ j j.2).2.2 order le_rfl m hm, Vars.lev, if_neg (lt_irrefl _), ((hF _ _ _ _).1 (hc s hs m hm)).2 j j.2]
  refine lip_congr hL (fun p hp j hj => ?_) (fun k hk => hg.controls s hs m hm k hk) j.2
  rw [ext_eq _ hj, ← (hQ j hj).2.2 p hp.le m hm, Vars.lev, if_pos hp]

/-- Two feasible points with the same start and the same controls, when equal polynomials give equal highest derivatives at the knots. -/
theorem seg_same_of (ho : 1 ≤ order) (hF : Solved F order n_q A) (hL0 : 0 ≤ L) (hL : LipA A (fun _ => True) order n_q n_u L) (hΛ0 : 0 ≤ Λ)
    (hpts : ∀ s < points.length, Distinct (points.getD s 0) (arr (coll (points.getD s 0))) ∧ Leb (points.getD s 0) (arr (coll (points.getD s 0))) Λ ∧
      ∀ m < points.getD s 0, arr (coll (points.getD s 0)) m ∈ Icc (-1 : ℝ) 1)
    (h0 : points ≠ []) (hm : ShortSegs Λ L h T points.length) {v v' : Vars} {Q Q' : ℕ → ℕ → ℝ[X]} {x0 : ℕ → ℕ → ℝ}
    (hQ : ∀ s < points.length, SegPoly v order n_q points coll T s (Q s)) (hQ' : ∀ s < points.length, SegPoly v' order n_q points coll T s (Q' s))
    (htop : (∀ s < points.length, ∀ j < n_q, Q s j = Q' s j) →
      (∀ s ≤ points.length, ∀ p < order, ∀ j < n_q, v.lev order n_q p (knotRow points s) j = v'.lev order n_q p (knotRow points s) j) →
      ∀ s ≤ points.length, ∀ j < n_q, v.lev order n_q order (knotRow points s) j = v'.lev order n_q order (knotRow points s) j)
    {collu : ℕ → List ℝ} (hpu : ∀ s < points.length, ∃ Λ, Leb (points.getD s 0) (arr (collu (points.getD s 0))) Λ)
    (hc : PhCollocated F v points) (hc' : PhCollocated F v' points) (hu : PhControls v n_u points collu T) (hu' : PhControls v' n_u points collu T)
    (hg : Given order n_q n_u points x0 c v) (hg' : Given order n_q n_u points x0 c v') : SameRows order n_q n_u points v v' := by
  have hpos := List.length_pos_of_ne_nil h0
  have hseg : ∀ s < points.length, (∀ p < order, ∀ j < n_q, v.lev order n_q p (knotRow points s) j = v'.lev order n_q p (knotRow points s) j) →
      ∀ j < n_q, Q s j = Q' s j := by
    intro s hs hk j hj
    obtain ⟨k1, k2, k3⟩ := hpts s hs
    have a1 := sol_of hs hF hL hc hg (hQ s hs)
    have a2 := sol_of hs hF hL hc' hg' (hQ' s hs)
    have := seg_unique (M := order) (x := fun p (j : Fin n_q) => v.lev order n_q p (knotRow points s) j) ho k3 hΛ0 k2 (hm.inc s hs) ((hm.le s hs).trans hm.half) hL0
      (le_trans (mul_le_mul_of_nonneg_right (by linarith [hm.le s hs]) (mul_nonneg hΛ0 hL0)) hm.lip)
      (fun m _ => rule_lip hL (c s m)) a1 ⟨a2.1, fun p hp j => (a2.2.1 p hp j).trans (hk p hp j j.2).symm, a2.2.2⟩
    exact congrFun this ⟨j, hj⟩
  have hknot : ∀ s ≤ points.length, ∀ p < order, ∀ j < n_q, v.lev order n_q p (knotRow points s) j = v'.lev order n_q p (knotRow points s) j := by
    intro s
    induction s with
    | zero => intro _ p hp j hj; exact (hg.start p hp j hj).trans (hg'.start p hp j hj).symm
    | succ s ih =>
      intro hs p hp j hj
      rw [((hQ s (by omega) j hj).2.1 p hp).2, ((hQ' s (by omega) j hj).2.1 p hp).2, hseg s (by omega) (ih (by omega)) j hj]
  have hq : ∀ s < points.length, ∀ j < n_q, Q s j = Q' s j := fun s hs => hseg s hs (hknot s hs.le)
  have hctl : ∀ s < points.length, ∀ k < n_u, v.u (knotRow points s) k = v'.u (knotRow points s) k ∧
      (s + 1 = points.length → v.u (knotRow points (s + 1)) k = v'.u (knotRow points (s + 1)) k) := by
    intro s hs k hk
    obtain ⟨p, p1, p2, p3, p4⟩ := hu s hs k hk
    obtain ⟨p', p1', p2', p3', p4'⟩ := hu' s hs k hk
    obtain ⟨Λu, hΛu⟩ := hpu s hs
    have e : p - p' = 0 := by
      by_contra hne
      have := fun (x : ℝ) => hΛu.time (x := x) (hm.inc s hs) (P := p - p') ((degree_sub_le _ _).trans_lt (max_lt p1 p1')) le_rfl (fun m hmm => by
        rw [eval_sub, ← p2 m hmm, ← p2' m hmm, hg.controls s hs m hmm k hk, hg'.controls s hs m hmm k hk, sub_self, abs_zero])
      refine hne (eq_zero_of_infinite_isRoot _ (Set.Infinite.mono (s := Icc (T s) (T (s + 1))) (fun x hx => ?_) (Icc_infinite (hm.inc s hs))))
      have := this x hx
      rwa [mul_zero, abs_nonpos_iff] at this
    rw [sub_eq_zero.1 e] at p3 p4
    exact ⟨p3.trans p3'.symm, fun hl => (p4 hl).trans (p4' hl).symm⟩
  intro r hr
  rcases rows_cover points hr with ⟨s, hs, rfl⟩ | ⟨s, hs, m, hmm, rfl⟩
  · refine ⟨fun p hp j hj => ?_, fun k hk => ?_⟩
    · rcases Nat.lt_or_eq_of_le hp with hp | rfl
      · exact hknot s hs p hp j hj
      · exact htop hq hknot s hs j hj
    · rcases Nat.lt_or_eq_of_le hs with hs | rfl
      · exact (hctl s hs k hk).1
      · have e : points.length - 1 + 1 = points.length := by omega
        have := (hctl (points.length - 1) (by omega) k hk).2 e
        rwa [e] at this
  · refine ⟨fun p hp j hj => ?_, fun k hk => (hg.controls s hs m hmm k hk).trans (hg'.controls s hs m hmm k hk).symm⟩
    rw [(hQ s hs j hj).2.2 p hp m hmm, (hQ' s hs j hj).2.2 p hp m hmm, hq s hs j hj]

/-- Two feasible points with the same start and the same controls. -/
theorem seg_same (ho : 1 ≤ order) (hF : Solved F order n_q A) (hL0 : 0 ≤ L) (hL : LipA A (fun _ => True) order n_q n_u L) (hΛ0 : 0 ≤ Λ)
    (hpts : ∀ s < points.length, Distinct (points.getD s 0) (arr (coll (points.getD s 0))) ∧ Leb (points.getD s 0) (arr (coll (points.getD s 0))) Λ ∧
      ∀ m < points.getD s 0, arr (coll (points.getD s 0)) m ∈ Icc (-1 : ℝ) 1)
    (h0 : points ≠ []) (hm : ShortSegs Λ L h T points.length) {v v' : Vars} {Q Q' : ℕ → ℕ → ℝ[X]} {x0 : ℕ → ℕ → ℝ}
    (hQ : ∀ s < points.length, SegPoly v order n_q points coll T s (Q s) ∧
        (∀ j < n_q, v.lev order n_q order (knotRow points s) j = (derivative^[order] (Q s j)).eval (T s)) ∧
        (s + 1 = points.length → ∀ j < n_q, v.lev order n_q order (knotRow points (s + 1)) j = (derivative^[order] (Q s j)).eval (T (s + 1))))
    (hQ' : ∀ s < points.length, SegPoly v' order n_q points coll T s (Q' s) ∧
        (∀ j < n_q, v'.lev order n_q order (knotRow points s) j = (derivative^[order] (Q' s j)).eval (T s)) ∧
        (s + 1 = points.length → ∀ j < n_q, v'.lev order n_q order (knotRow points (s + 1)) j = (derivative^[order] (Q' s j)).eval (T (s + 1))))
    (hc : PhCollocated F v points) (hc' : PhCollocated F v' points) (hu : PhControls v n_u points coll T) (hu' : PhControls v' n_u points coll T)
    (hg : Given order n_q n_u points x0 c v) (hg' : Given order n_q n_u points x0 c v') : SameRows order n_q n_u points v v' := by
  have hpos := List.length_pos_of_ne_nil h0
  refine seg_same_of ho hF hL0 hL hΛ0 hpts h0 hm (fun s h => (hQ s h).1) (fun s h => (hQ' s h).1) (fun hq _ s hs j hj => ?_) (fun s h => ⟨Λ, (hpts s h).2.1⟩) hc hc' hu hu' hg hg'
  rcases Nat.lt_or_eq_of_le hs with hs | rfl
  · rw [(hQ s hs).2.1 j hj, (hQ' s hs).2.1 j hj, hq s hs j hj]
  · have e : points.length - 1 + 1 = points.length := by omega
    have b1 := (hQ (points.length - 1) (by omega)).2.2 e j hj
    have b2 := (hQ' (points.length - 1) (by omega)).2.2 e j hj
    rw [e] at b1 b2
    rw [b1, b2, hq _ (by omega) j hj]

/-- The polynomials of all the segments, one after the other. -/
theorem segs_exist (hL0 : 0 ≤ L) (hL : LipA A (fun _ => True) order n_q n_u L) (hΛ0 : 0 ≤ Λ)
    (hpts : ∀ s < points.length, Distinct (points.getD s 0) (arr (coll (points.getD s 0))) ∧ Leb (points.getD s 0) (arr (coll (points.getD s 0))) Λ ∧
      ∀ m < points.getD s 0, arr (coll (points.getD s 0)) m ∈ Icc (-1 : ℝ) 1)
    (hm : ShortSegs Λ L h T points.length) (x0 : ℕ → Fin n_q → ℝ) (c : ℕ → ℕ → ℕ → ℝ) :
    ∃ (X : ℕ → ℕ → Fin n_q → ℝ) (R : ℕ → Fin n_q → ℝ[X]), X 0 = x0 ∧ (∀ s p j, X (s + 1) p j = (derivative^[p] (R s j)).eval (T (s + 1))) ∧
      ∀ s < points.length, SegSol order (points.getD s 0) (arr (coll (points.getD s 0))) (T s) (T (s + 1)) (fun m ξ (j : Fin n_q) => A (ext ξ) (c s m) j) (X s) (R s) := by
  have : ∀ (s : ℕ) (x : ℕ → Fin n_q → ℝ), ∃ R, s < points.length → SegSol order (points.getD s 0) (arr (coll (points.getD s 0))) (T s) (T (s + 1))
      (fun m ξ (j : Fin n_q) => A (ext ξ) (c s m) j) x R := by
    intro s x
    by_cases hs : s < points.length
    · obtain ⟨k1, k2, k3⟩ := hpts s hs
      obtain ⟨R, hR⟩ := seg_exists (x := x) k1 k3 hΛ0 k2 (hm.inc s hs) ((hm.le s hs).trans hm.half) hL0
        (le_trans (mul_le_mul_of_nonneg_right (by linarith [hm.le s hs]) (mul_nonneg hΛ0 hL0)) hm.lip) (fun m _ => rule_lip hL (c s m))
      exact ⟨R, fun _ => hR⟩
    · exact ⟨fun _ => 0, fun h => absurd h hs⟩
  choose R hR using this
  let X : ℕ → ℕ → Fin n_q → ℝ := fun s => Nat.rec x0 (fun s x p j => (derivative^[p] (R s x j)).eval (T (s + 1))) s
  exact ⟨X, fun s => R s (X s), rfl, fun s p j => rfl, fun s hs => hR s (X s) hs⟩

/-- A point with given start and controls. -/
theorem seg_point (hl : 0 < points.length) (ho : 1 ≤ order) (hF : Solved F order n_q A) (hL0 : 0 ≤ L) (hL : LipA A (fun _ => True) order n_q n_u L) (hΛ0 : 0 ≤ Λ)
    (hpts : ∀ s < points.length, Distinct (points.getD s 0) (arr (coll (points.getD s 0))) ∧ Leb (points.getD s 0) (arr (coll (points.getD s 0))) Λ ∧
      ∀ m < points.getD s 0, arr (coll (points.getD s 0)) m ∈ Icc (-1 : ℝ) 1)
    (hm : ShortSegs Λ L h T points.length) (x0 : ℕ → ℕ → ℝ) (c : ℕ → ℕ → ℕ → ℝ) :
    ∃ (v : Vars) (Q : ℕ → ℕ → ℝ[X]), (∀ s < points.length, SegPoly v order n_q points coll T s (Q s) ∧
        (∀ j < n_q, v.lev order n_q order (knotRow points s) j = (derivative^[order] (Q s j)).eval (T s)) ∧
        (s + 1 = points.length → ∀ j < n_q, v.lev order n_q order (knotRow points (s + 1)) j = (derivative^[order] (Q s j)).eval (T (s + 1)))) ∧
      (∀ s ≤ points.length, KnotShift v order n_q points s) ∧ PhCollocated F v points ∧ PhControls v n_u points coll T ∧ Given order n_q n_u points x0 c v := by
  obtain ⟨X, R, hX0, hX, hR⟩ := segs_exist hL0 hL hΛ0 hpts hm (fun p (j : Fin n_q) => x0 p j) c
  obtain ⟨Q, hQ⟩ : ∃ Q : ℕ → ℕ → ℝ[X], Q = fun s j => if hj : j < n_q then R s ⟨j, hj⟩ else 0 := ⟨_, rfl⟩
  have hQR : ∀ s j (hj : j < n_q), Q s j = R s ⟨j, hj⟩ := fun s j hj => by rw [hQ]; simp only [hj, dif_pos]
  obtain ⟨Y, hY1, hY2⟩ := rows_decode points
    (fun s p j => if p < order ∧ 0 < s then (derivative^[p] (Q (s - 1) j)).eval (T s) else if s < points.length then (derivative^[p] (Q s j)).eval (T s) else (derivative^[p] (Q (s - 1) j)).eval (T s))
    (fun s m p j => (derivative^[p] (Q s j)).eval (tauToT (arr (coll (points.getD s 0)) m) (T s) (T (s + 1))))
  have hstart : ∀ s < points.length, ∀ p < order, ∀ j < n_q, Y (knotRow points s) p j = (derivative^[p] (Q s j)).eval (T s) := by
    intro s hs p hp j hj
    rw [hY1]
    cases s with
    | zero => simp [hs]
    | succ s =>
      simp only [hp, Nat.zero_lt_succ, and_self, if_true, Nat.add_sub_cancel]
      rw [hQR _ _ hj, hQR _ _ hj, (hR (s + 1) hs).2.1 p hp ⟨j, hj⟩, hX]
  have hu : ∀ s k, ∃ p : ℝ[X], s < points.length → p.degree < points.getD s 0 ∧
      ∀ m < points.getD s 0, p.eval (tauToT (arr (coll (points.getD s 0)) m) (T s) (T (s + 1))) = c s m k := by
    intro s k
    by_cases hs : s < points.length
    · obtain ⟨p, h1, h2⟩ := interp_time (hm.inc s hs).ne (hpts s hs).1 fun m => c s m k
      exact ⟨p, fun _ => ⟨h1, h2⟩⟩
    · exact ⟨0, fun h => absurd h hs⟩
  choose P hP using hu
  obtain ⟨u, hu1, hu2⟩ := rows_decode points (fun s k => if s < points.length then (P s k).eval (T s) else (P (s - 1) k).eval (T s)) c
  refine ⟨ofLevels n_q Y u, Q, fun s hs => ⟨fun j hj => ⟨?_, fun k hk => ⟨?_, ?_⟩, fun k hk m hmm => ?_⟩, fun j hj => ?_, fun hl j hj => ?_⟩, fun s hs k hk => ?_,
    fun s hs m hmm => ?_, fun s hs k hk => ⟨P s k, (hP s k hs).1, fun m hmm => ?_, ?_, fun hl => ?_⟩, fun p hp j hj => ?_, fun s hs m hmm k hk => ?_⟩
  · rw [hQR s j hj]; exact (hR s hs).1 ⟨j, hj⟩
  · rw [ofLevels_lev (by omega) hk.le hj]; exact hstart s hs k hk j hj
  · rw [ofLevels_lev (by omega) hk.le hj, hY1]
    simp only [hk, Nat.zero_lt_succ, and_self, if_true, Nat.add_sub_cancel]
  · rw [ofLevels_lev (by omega) hk hj, hY2 s m hmm]
  · rw [ofLevels_lev (by omega) le_rfl hj, hY1]
    simp [hs]
  · rw [ofLevels_lev (by omega) le_rfl hj, hY1]
    rw [← hl]
    simp
  · simp only [ofLevels]
    have hq : 0 < n_q := by
      rcases Nat.eq_zero_or_pos n_q with h | h
      · rw [h, mul_zero] at hk; omega
      · exact h
    rw [Nat.add_div_left _ hq, Nat.add_mod_left]
  · have := ofLevels_zero (u := u) (i := colRow points s m) (Y := Y) (by omega) hF hL (fun j hj => by
      rw [hY2 s m hmm]
      dsimp only
      rw [hQR s j hj, (hR s hs).2.2 m hmm ⟨j, hj⟩]
      refine lip_congr hL (fun p hp j hj => ?_) (fun k _ => by rw [hu2 s m hmm]) hj
      rw [ext_eq _ hj, hQR s j hj])
    exact this
  · simp only [ofLevels, hu2 s m hmm]
    exact ((hP s k hs).2 m hmm).symm
  · simp only [ofLevels, hu1, hs, if_true]
  · simp only [ofLevels, hu1, hl, lt_irrefl, if_false]
    rw [← hl, Nat.add_sub_cancel]
  · have h00 : knotRow points 0 = 0 := rfl
    rw [ofLevels_lev (by omega) hp.le hj, ← h00]
    rw [hstart 0 hl p hp j hj, hQR _ _ hj, (hR 0 hl).2.1 p hp ⟨j, hj⟩, hX0]
  · simp only [ofLevels, hu2 s m hmm]
end

private theorem mem_getD {points : List ℕ} {s : ℕ} (h : s < points.length) : points.getD s 0 ∈ points := by
  rw [List.getD_eq_getElem?_getD, List.getElem?_eq_getElem h]
  exact List.getElem_mem _

theorem points_distinct {scheme : String} (hs : scheme ∈ implemented) {order : ℕ} (ho : 1 ≤ order) {n B : ℕ} {points : List ℕ} (hp : Admissible scheme n B points)
    {coll : ℕ → List ℝ} (hcoll : ∀ p ∈ points, collPoints p scheme order = .ok (coll p)) :
    ∀ s < points.length, Distinct (points.getD s 0) (arr (coll (points.getD s 0))) := by
  intro s h
  obtain ⟨L, k1, -, k3⟩ := coll_distinct hs ho (hp.2 _ (mem_getD h)).1
  rw [hcoll _ (mem_getD h)] at k1
  cases k1
  exact k3

/-- C172, bottom-up: with segments short enough, any start and any controls at the collocation points belong to exactly one feasible point. -/
theorem C172_bu {scheme : String} (hs : scheme ∈ buImplemented) {order : ℕ} (ho : 1 ≤ order) (B : ℕ) :
    ∃ Λ, 0 ≤ Λ ∧ ∀ (F : Dyn) (n_q n_u : ℕ) (points : List ℕ), Admissible scheme 0 B points → ((∀ p ∈ points, 2 ≤ p) ∨ scheme ∉ gaussLike) →
      ∀ coll : ℕ → List ℝ, (∀ p ∈ points, collPoints p scheme order = .ok (coll p)) → ∀ ext : List ℝ, ext.length = points.length + 1 →
      ∀ A L h, Solved F order n_q A → 0 ≤ L → LipA A (fun _ => True) order n_q n_u L → ShortSegs Λ L h (fun s => ext.getD s 0) points.length →
      ∃ C, phConstraints F .bu scheme order n_q n_u points ext = .ok C ∧ ∀ x0 c, (∃ v, (∀ q, C v q) ∧ Given order n_q n_u points x0 c v) ∧
        ∀ v v' q q', C v q → C v' q' → Given order n_q n_u points x0 c v → Given order n_q n_u points x0 c v' → SameRows order n_q n_u points v v' := by
  have himp : scheme ∈ implemented := (bu_imp hs).1
  obtain ⟨Λ, hΛ0, hΛ⟩ := leb_scheme himp ho B
  refine ⟨Λ, hΛ0, fun F n_q n_u points hp h1 coll hcoll ext hl A L h hF hL0 hL hm => ?_⟩
  obtain ⟨C, hC, hCv⟩ := C99_feasible hs ho F n_q n_u hp.1 (fun p hpp => (hp.2 p hpp).1) h1 hcoll hl (fun s h => (hm.inc s h).ne)
  have hpts := fun s h => And.intro (points_distinct himp ho hp hcoll s h) (points_ok himp ho hΛ hp hcoll s h).2
  refine ⟨C, hC, fun x0 c => ⟨?_, fun v v' q q' hv hv' hg hg' => ?_⟩⟩
  · obtain ⟨v, Q, a1, a2, a3, a4, a5⟩ := seg_point (coll := coll) (T := fun s => ext.getD s 0) (List.length_pos_of_ne_nil hp.1) ho hF hL0 hL hΛ0 hpts hm x0 c
    exact ⟨v, fun q => (hCv v q).2 ⟨⟨Q, a1⟩, a2, a3, a4⟩, a5⟩
  · obtain ⟨⟨Q, hQ⟩, -, hc, hu⟩ := (hCv v q).1 hv
    obtain ⟨⟨Q', hQ'⟩, -, hc', hu'⟩ := (hCv v' q').1 hv'
    exact seg_same ho hF hL0 hL hΛ0 hpts hp.1 hm hQ hQ' hc hc' hu hu' hg hg'

/-- C172, top-down: with segments short enough, there is at most one feasible point for any start and any controls at the collocation points. -/
theorem C172_td_partial {scheme : String} (hs : scheme ∈ buImplemented) {order : ℕ} (ho : 1 ≤ order) (B : ℕ) :
    ∃ Λ, 0 ≤ Λ ∧ ∀ (F : Dyn) (n_q n_u : ℕ) (points : List ℕ), Admissible scheme 0 B points →
      ∀ coll : ℕ → List ℝ, (∀ p ∈ points, collPoints p scheme order = .ok (coll p)) → ∀ ext : List ℝ, ext.length = points.length + 1 →
      ∀ A L h, Solved F order n_q A → 0 ≤ L → LipA A (fun _ => True) order n_q n_u L → ShortSegs Λ L h (fun s => ext.getD s 0) points.length →
      ∃ C, phConstraints F .td scheme order n_q n_u points ext = .ok C ∧ ∀ x0 c, (points.length = 1 → ∃ v q, C v q ∧ Given order n_q n_u points x0 c v) ∧
        ∀ v v' q q', C v q → C v' q' → Given order n_q n_u points x0 c v → Given order n_q n_u points x0 c v' → SameRows order n_q n_u points v v' := by
  have himp : scheme ∈ implemented := (bu_imp hs).1
  obtain ⟨Λ, hΛ0, hΛ⟩ := leb_scheme himp ho B
  refine ⟨Λ, hΛ0, fun F n_q n_u points hp coll hcoll ext hl A L h hF hL0 hL hm => ?_⟩
  obtain ⟨C, hC, hCv⟩ := C100_feasible hs ho F n_q n_u hp.1 (fun p hpp => (hp.2 p hpp).1) hcoll hl (fun s h => (hm.inc s h).ne)
  have hpts := fun s h => And.intro (points_distinct himp ho hp hcoll s h) (points_ok himp ho hΛ hp hcoll s h).2
  refine ⟨C, hC, fun x0 c => ⟨fun h1 => ?_, fun v v' q q' hv hv' hg hg' => ?_⟩⟩
  · obtain ⟨v, Q, a1, a2, a3, a4, a5⟩ := seg_point (coll := coll) (T := fun s => ext.getD s 0) (List.length_pos_of_ne_nil hp.1) ho hF hL0 hL hΛ0 hpts hm x0 c
    obtain ⟨q, hq⟩ := (hCv v).2 ⟨⟨Q, fun s hs => ⟨(a1 s hs).1, fun j hj => ⟨(a1 s hs).2.1 j hj, (a1 s hs).2.2 (by omega) j hj⟩⟩⟩, a2, a3, a4⟩
    exact ⟨v, q, hq, a5⟩
  · obtain ⟨⟨Q, hQ⟩, -, hc, hu⟩ := (hCv v).1 ⟨q, hv⟩
    obtain ⟨⟨Q', hQ'⟩, -, hc', hu'⟩ := (hCv v').1 ⟨q', hv'⟩
    exact seg_same ho hF hL0 hL hΛ0 hpts hp.1 hm (fun s h => ⟨(hQ s h).1, fun j hj => ((hQ s h).2 j hj).1, fun _ j hj => ((hQ s h).2 j hj).2⟩)
      (fun s h => ⟨(hQ' s h).1, fun j hj => ((hQ' s h).2 j hj).1, fun _ j hj => ((hQ' s h).2 j hj).2⟩) hc hc' hu hu' hg hg'

/-- The velocity is the control. -/
def velocityDyn : Dyn := fun _ xd u _ => [xd 0 - u 0]

theorem velocity_solved : Solved velocityDyn 1 1 fun _ u j => u j := by
  intro x xd u lam
  simp only [velocityDyn, zero, List.mem_singleton, forall_eq, sub_eq_zero]
  constructor
  · intro h
    exact ⟨fun p hp => by omega, fun j hj => by obtain rfl : j = 0 := by omega
                                                simpa using h⟩
  · rintro ⟨-, h⟩
    simpa using h 0 one_pos

/-- The hypotheses of C171 and C172 for two segments of half a second, with the velocity as the control. -/
example {Λ : ℝ} : "LGR" ∈ buImplemented ∧ Admissible "LGR" 1 1 [1, 1] ∧ "LGR" ∉ gaussLike ∧ Explicit velocityDyn 1 1 (fun _ u j => u j) ∧
    Solved velocityDyn 1 1 (fun _ u j => u j) ∧ LipA (fun _ u j => u j) (fun _ => True) 1 1 1 0 ∧
    ShortSegs Λ 0 (1 / 2) (fun s => ([0, 1 / 2, 1] : List ℝ).getD s 0) 2 ∧
    SegMotions (fun _ u j => u j) 1 1 1 (fun s => ([0, 1 / 2, 1] : List ℝ).getD s 0) 2 (fun s _ _ => ([0, 1 / 2, 1] : List ℝ).getD s 0) (fun _ _ _ => 1)
      (fun _ _ k t => if k = 0 then t else if k = 1 then 1 else 0) := by
  refine ⟨by decide, ⟨by simp, by simp [minPoints]⟩, by decide, ?_, velocity_solved, ?_, ⟨?_, ?_, le_rfl, by norm_num⟩, ⟨?_, ?_, ?_, ?_⟩⟩
  · intro x xd u lam h j hj
    simpa using ((velocity_solved _ _ _ _).1 h).2 j hj
  · intro ξ η u w d _ _ _ h j hj
    simp [h j hj]
  · intro s hs
    interval_cases s <;> norm_num
  · intro s hs
    interval_cases s <;> norm_num
  · intro s _ j _ k hk t _
    interval_cases k
    · exact (hasDerivAt_id t).hasDerivWithinAt
    · exact (hasDerivAt_const t (1 : ℝ)).hasDerivWithinAt
  · intro s _ t _ j _
    simp
  · intro s _ j _ p hp
    obtain rfl : p = 0 := by omega
    simp
  · intro s _ j _ p hp
    obtain rfl : p = 0 := by omega
    simp

/-- C172, top-down with two segments: however short they are, there are controls without any feasible point. Here the velocity is the control, each segment has one
point, and the controls of the segments differ. -/
theorem C172_td_refuted {scheme : String} (hs : scheme ∈ buImplemented) (hN : minPoints scheme ≤ 1) {h : ℝ} (hh : 0 < h) :
    ∃ C, phConstraints velocityDyn .td scheme 1 1 1 [1, 1] [0, h, 2 * h] = .ok C ∧ ∀ x0 c, c 0 0 0 ≠ c 1 0 0 →
      ¬ ∃ v q, C v q ∧ Given 1 1 1 [1, 1] x0 c v := by
  have himp : scheme ∈ implemented := (bu_imp hs).1
  obtain ⟨coll, k1, -, -⟩ := coll_distinct himp (order := 1) le_rfl hN
  obtain ⟨C, hC, hCv⟩ := C100_feasible hs (order := 1) le_rfl velocityDyn 1 1 (points := [1, 1]) (by simp) (by simpa using hN) (coll := fun _ => coll) (by simpa using k1)
    (ext := [0, h, 2 * h]) (by simp) (by
      intro s hs
      have : s < 2 := by simpa using hs
      interval_cases s
      · simpa using hh.ne
      · simp only [List.getD_cons_succ, List.getD_cons_zero]; linarith)
  refine ⟨C, hC, fun x0 c hne => ?_⟩
  rintro ⟨v, q, hv, hg⟩
  obtain ⟨⟨Q, hQ⟩, -, hc, -⟩ := (hCv v).1 ⟨q, hv⟩
  have slope : ∀ s < 2, ∀ t, (derivative (Q s 0)).eval t = c s 0 0 := by
    intro s hs t
    have hp : ([1, 1] : List ℕ).getD s 0 = 1 := by interval_cases s <;> rfl
    have a1 := (hQ s hs).1 0 one_pos
    have a2 := a1.2.2 1 le_rfl 0 (by rw [hp]; exact one_pos)
    have a3 := hc s hs 0 (by rw [hp]; exact one_pos)
    have a4 := hg.controls s hs 0 (by rw [hp]; exact one_pos) 0 one_pos
    have a5 := ((velocity_solved _ _ _ _).1 a3).2 0 one_pos
    have hd : (derivative (Q s 0)).degree < (1 : ℕ) := by
      have := derivative_degree (M := 1) (N := 1) (P := Q s 0) (by have := a1.1; rwa [hp] at this)
      simpa using this
    have hconst := eq_C_of_degree_le_zero (p := derivative (Q s 0)) (Nat.WithBot.lt_one_iff_le_zero.1 (by simpa using hd))
    rw [hconst, eval_C]
    simp only [Function.iterate_one] at a2
    rw [hconst, eval_C] at a2
    rw [← a2, Vars.lev, if_neg (by omega), a5]
    exact a4
  have e0 := ((hQ 0 (by simp)).2 0 one_pos).2
  have e1 := ((hQ 1 (by simp)).2 0 one_pos).1
  simp only [Function.iterate_one, zero_add] at e0 e1
  rw [slope 0 (by omega)] at e0
  rw [slope 1 (by omega)] at e1
  exact hne (e0.symm.trans e1)

example : "LGR" ∈ buImplemented ∧ minPoints "LGR" ≤ 1 := by decide

end Chords.Conv
