import Verif.Props.BestPoint
import Verif.Props.PhSolvable
import Verif.Props.PhNodeSolve

/-! # C188: with linear dynamics and a given start there is one best motion -/

namespace Chords.Blend
open Finset Chords.Points Chords.Bary Chords.BuTd Chords.Equi Chords.PhScheme Chords.Problem Chords.Spec Chords.Props Chords.Gauss Chords.Conv Mix

variable {V W : Type} [Mix V] [Mix W]

/-- There is one best point. `C` are the conditions that the problem states and `J` its cost; `K` are linear equations that the user adds,
such as boundary conditions. If all of them can be met, some point meets them at the least cost, and every other one like that is
the `same`. -/
def OneBest (C : V → Prop) (J : V → ℝ) (same : V → V → Prop) : Prop :=
  ∀ K : V → Prop, (∀ s v w, K v → K w → K (mix s v w)) → (∃ v, C v ∧ K v) →
    ∃ v, (C v ∧ K v ∧ ∀ z, C z → K z → J v ≤ J z) ∧ ∀ w, (C w ∧ K w ∧ ∀ z, C z → K z → J w ≤ J z) → same v w

theorem oneBest {C S : V → Prop} {J : V → ℝ} {same same' : V → V → Prop} (h1 : OneOptimum C J same) (h2 : HasBest C J) (hS : Keeps S)
    (h : ∀ v w, C v → S v → C w → S w → same v w → same' v w) : OneBest (fun v => C v ∧ S v) J same' := by
  intro K hK hex
  have hK' : ∀ s v w, (S v ∧ K v) → (S w ∧ K w) → S (mix s v w) ∧ K (mix s v w) := fun s v w a b => ⟨hS.out s v w a.1 b.1, hK s v w a.2 b.2⟩
  obtain ⟨v, v1, v2, v3⟩ := h2 (fun v => S v ∧ K v) hK' (by obtain ⟨v, a, b⟩ := hex; exact ⟨v, a.1, a.2, b⟩)
  refine ⟨v, ⟨⟨v1, v2.1⟩, v2.2, fun z a b => v3 z a.1 ⟨a.2, b⟩⟩, fun w hw => ?_⟩
  obtain ⟨⟨w1, w2⟩, w3, w4⟩ := hw
  exact h v w v1 v2.1 w1 w2 ((h1 (fun v => S v ∧ K v) fun s v w _ _ => hK' s v w).2 v w ⟨v1, v2, v3⟩ ⟨w1, ⟨w2, w3⟩, fun z a b => w4 z ⟨a, b.1⟩ b.2⟩)

/-- The first row holds the given state. -/
def StartsAt (order n_q : ℕ) (x0 : ℕ → ℕ → ℝ) (v : Vars) : Prop := ∀ p < order, ∀ j < n_q, v.lev order n_q p 0 j = x0 p j

theorem keeps_startsAt (order n_q : ℕ) (x0 : ℕ → ℕ → ℝ) : Keeps (StartsAt order n_q x0) :=
  .all fun p => .all fun _ => .all fun j => .all fun _ => .eq (aff_lev ..) (aff_const _)

/-! ## Equispaced problems -/

/-- All the states, their highest derivatives and the controls are the same, at the samples and, for the schemes with parabolas, at the
inner points. -/
structure SameMotion (order N n_q n_u : ℕ) (s : Shape) (p r : (Vars × Vars) × (ℕ → ℕ → ℝ)) : Prop where
  states : ∀ i ≤ N, ∀ k ≤ order, ∀ j < n_q, p.1.1.lev order n_q k i j = r.1.1.lev order n_q k i j
  controls : ∀ i ≤ N, ∀ m < n_u, p.1.1.u i m = r.1.1.u i m
  inner : s ≠ .line → ∀ i < N, (∀ k ≤ order, ∀ j < n_q, p.1.2.lev order n_q k i j = r.1.2.lev order n_q k i j) ∧
    ∀ m < n_u, p.1.2.u i m = r.1.2.u i m

section
variable {F : Dyn} {scheme : String} {s : Shape} {order N n_q n_u : ℕ} {t0 t1 L : ℝ} {A : (ℕ → ℕ → ℝ) → (ℕ → ℝ) → ℕ → ℝ}

private theorem hs_contains {o : Option ℕ} {M : ℕ} (hs : SchemeIs o scheme s M) (hl : s ≠ .line) : contains scheme "hs" = true := by
  cases hs <;> first | exact absurd rfl hl | rfl

/-- C188, equispaced problems with the schemes of their order. -/
theorem C188_equispaced (hlin : LinearDyn F) (hs : SchemeIs (some order) scheme s order) (ho : 0 < order) (hN : 0 < N) (ht : t0 < t1)
    (hF : Solved F order n_q A) (hL0 : 0 ≤ L) (hL : LipA A (fun _ => True) order n_q n_u L) (hhL : (t1 - t0) / N * (2 + 20 * L) ≤ 1 / 2) :
    ∃ P, equiConstraints F scheme N order n_q n_u t0 t1 = .ok P ∧ ∀ x0,
      OneBest (fun p => (P p.1.1 p.1.2 ∧ Costs.uSqConstraint scheme N (stored n_u p)) ∧ StartsAt order n_q x0 p.1.1)
        (fun p => Costs.uSqCost scheme (t1 - t0) N (stored n_u p)) (SameMotion order N n_q n_u s) := by
  obtain ⟨P, hP, hu⟩ := C157_motion hs ho hN ht hF hL0 hL rfl hhL
  obtain ⟨P', hP', hv⟩ := C91_motion F hs N n_q n_u hN ht.ne
  obtain rfl := Except.ok.inj (hP.symm.trans hP')
  refine ⟨P, hP, fun x0 => oneBest (C186_equispaced hlin scheme hN order n_q n_u ht hP) (C187_equispaced hlin scheme N order n_q n_u ht.le hP)
    ((keeps_startsAt order n_q x0).comp (aff_fst.comp aff_fst)) ?_⟩
  rintro ⟨⟨v, c⟩, j⟩ ⟨⟨v', c'⟩, j'⟩ ⟨h, -⟩ hx ⟨h', -⟩ hx' ⟨eu, ec⟩
  dsimp only at *
  have hlc : ∀ θ, s = .parab θ → LinearControl scheme → ∀ i < N, ∀ m < n_u, c.u i m = (1 - θ) * v.u i m + θ * v.u (i + 1) m :=
    fun θ hθ => (((hv v c).1 h).2.2 θ hθ).2
  by_cases hl : s = .line
  · subst hl
    have h'' : P v' c := by
      obtain ⟨a1, a2, -⟩ := (hv v' c').1 h'
      refine (hv v' c).2 ⟨fun i hi j hj => ?_, a2, fun θ hθ => by cases hθ⟩
      obtain ⟨d, d1, d2, -⟩ := a1 i hi j hj
      exact ⟨d, d1, d2, fun θ hθ => by cases hθ⟩
    obtain ⟨k, -⟩ := (hu x0 v.u c.u hlc).2 v c v' c h h'' ⟨hx, fun _ _ _ _ => rfl, fun _ _ _ _ => rfl⟩
      ⟨hx', fun i hi m hm => (eu i hi m hm).symm, fun _ _ _ _ => rfl⟩
    exact ⟨k, eu, fun hn => absurd rfl hn⟩
  · have ec := ec (hs_contains hs hl)
    obtain ⟨k1, k2⟩ := (hu x0 v.u c.u hlc).2 v c v' c' h h' ⟨hx, fun _ _ _ _ => rfl, fun _ _ _ _ => rfl⟩
      ⟨hx', fun i hi m hm => (eu i hi m hm).symm, fun i hi m hm => (ec i hi m hm).symm⟩
    obtain ⟨θ, hθ⟩ : ∃ θ, s = .parab θ := by
      cases s with
      | line => exact absurd rfl hl
      | parab θ => exact ⟨θ, rfl⟩
    exact ⟨k1, eu, fun _ i hi => ⟨k2 θ hθ i hi, ec i hi⟩⟩

/-- C188, the schemes of first order in problems of any order. -/
theorem C188_levels (hlin : LinearDyn F) (hs : scheme = "trapz" ∧ s = .line ∨ (scheme = "hs" ∨ scheme = "hs_parab") ∧ s = .parab (1 / 2))
    (ho : 0 < order) (hN : 0 < N) (ht : t0 < t1)
    (hF : Solved F order n_q A) (hL1 : 1 ≤ L) (hL : LipA A (fun _ => True) order n_q n_u L) (hhL : (t1 - t0) / N * (2 + 20 * L) ≤ 1 / 2) :
    ∃ P, equiConstraints F scheme N order n_q n_u t0 t1 = .ok P ∧ ∀ x0,
      OneBest (fun p => (P p.1.1 p.1.2 ∧ Costs.uSqConstraint scheme N (stored n_u p)) ∧ StartsAt order n_q x0 p.1.1)
        (fun p => Costs.uSqCost scheme (t1 - t0) N (stored n_u p)) (SameMotion order N n_q n_u s) := by
  obtain ⟨P, hP, hu⟩ := C157_levels hs ho hN ht hF hL1 hL rfl hhL
  obtain ⟨P', hP', hv⟩ := C91_levels F hs N order n_q n_u hN ht.ne
  obtain rfl := Except.ok.inj (hP.symm.trans hP')
  refine ⟨P, hP, fun x0 => oneBest (C186_equispaced hlin scheme hN order n_q n_u ht hP) (C187_equispaced hlin scheme N order n_q n_u ht.le hP)
    ((keeps_startsAt order n_q x0).comp (aff_fst.comp aff_fst)) ?_⟩
  rintro ⟨⟨v, c⟩, j⟩ ⟨⟨v', c'⟩, j'⟩ ⟨h, -⟩ hx ⟨h', -⟩ hx' ⟨eu, ec⟩
  dsimp only at *
  by_cases hl : s = .line
  · have hsc : scheme = "trapz" := by
      obtain ⟨h, -⟩ | ⟨-, h⟩ := hs
      · exact h
      · rw [hl] at h; cases h
    subst hl
    have h'' : P v' c := by
      obtain ⟨a1, a2, -⟩ := (hv v' c').1 h'
      refine (hv v' c).2 ⟨fun i hi j hj p hp => ?_, a2, fun hn => absurd rfl hn⟩
      obtain ⟨d, d1, d2, -⟩ := a1 i hi j hj p hp
      exact ⟨d, d1, d2, fun θ hθ => by cases hθ⟩
    obtain ⟨k, -⟩ := (hu x0 v.u c.u fun e => by rw [hsc] at e; exact absurd e (by decide)).2 v c v' c h h'' ⟨hx, fun _ _ _ _ => rfl, fun _ _ _ _ => rfl⟩
      ⟨hx', fun i hi m hm => (eu i hi m hm).symm, fun _ _ _ _ => rfl⟩
    exact ⟨k, eu, fun hn => absurd rfl hn⟩
  · have hc : contains scheme "hs" = true := by
      obtain ⟨-, h⟩ | ⟨rfl | rfl, -⟩ := hs
      · exact absurd h hl
      · rfl
      · rfl
    have ec := ec hc
    obtain ⟨k1, k2⟩ := (hu x0 v.u c.u (((hv v c).1 h).2.2 hl).2).2 v c v' c' h h' ⟨hx, fun _ _ _ _ => rfl, fun _ _ _ _ => rfl⟩
      ⟨hx', fun i hi m hm => (eu i hi m hm).symm, fun i hi m hm => (ec i hi m hm).symm⟩
    exact ⟨k1, eu, fun _ i hi => ⟨k2 hl i hi, ec i hi⟩⟩

/-- C188, the scheme "hsj_parab_mod", whose cost is that of a third control of each step. -/
theorem C188_mod (hlin : LinearDyn F) (hN : 0 < N) (ht : t0 < t1)
    (hF : Solved F 2 n_q A) (hL0 : 0 ≤ L) (hL : LipA A (fun _ => True) 2 n_q n_u L) (hhL : (t1 - t0) / N * (2 + 20 * L) ≤ 1 / 2) :
    ∃ P, equiConstraints F "hsj_parab_mod" N 2 n_q n_u t0 t1 = .ok P ∧ ∀ x0,
      OneBest (fun p => (P p.1.1 p.1.2 ∧ Costs.uSqConstraint "hsj_parab_mod" N (stored n_u p)) ∧ StartsAt 2 n_q x0 p.1.1)
        (fun p => Costs.uSqCost "hsj_parab_mod" (t1 - t0) N (stored n_u p)) (SameMotion 2 N n_q n_u (.parab (2 / 5))) := by
  obtain ⟨P, hP, hu⟩ := C157_motion .hsj_parab two_pos hN ht hF hL0 hL rfl hhL
  rw [← C91_hsj_parab_mod] at hP
  refine ⟨P, hP, fun x0 => oneBest (C186_equispaced hlin _ hN 2 n_q n_u ht hP) (C187_equispaced hlin _ N 2 n_q n_u ht.le hP)
    ((keeps_startsAt 2 n_q x0).comp (aff_fst.comp aff_fst)) ?_⟩
  rintro ⟨⟨v, c⟩, j⟩ ⟨⟨v', c'⟩, j'⟩ ⟨h, -⟩ hx ⟨h', -⟩ hx' ⟨eu, ec⟩
  dsimp only at *
  have ec := ec (by decide)
  obtain ⟨k1, k2⟩ := (hu x0 v.u c.u fun θ _ hl => absurd hl (by unfold LinearControl; decide)).2 v c v' c' h h' ⟨hx, fun _ _ _ _ => rfl, fun _ _ _ _ => rfl⟩
    ⟨hx', fun i hi m hm => (eu i hi m hm).symm, fun i hi m hm => (ec i hi m hm).symm⟩
  exact ⟨k1, eu, fun _ i hi => ⟨k2 _ rfl i hi, ec i hi⟩⟩
end

/-! ## Segmented problems -/

private theorem row_get (points : List ℕ) : ∀ (a k i : ℕ), k < points.length → i < points.getD k 0 →
    ((Ph.segRows a points).map (·.1)).flatten[(points.take k).sum + i]? = some (a + knotRow points k + i) := by
  induction points with
  | nil => intro a k i hk; simp at hk
  | cons p ps ih =>
    intro a k i hk hi
    simp only [Ph.segRows, List.map_cons, List.flatten_cons]
    cases k with
    | zero =>
      simp only [List.getD_cons_zero] at hi
      rw [List.getElem?_append_left (by simpa using hi)]
      simp [knotRow, hi]
    | succ k =>
      simp only [List.getD_cons_succ] at hi
      simp only [List.length_cons, Nat.add_lt_add_iff_right] at hk
      rw [List.getElem?_append_right (by simp; omega)]
      have := ih (a + p + 1) k i hk hi
      have e : knotRow (p :: ps) (k + 1) = p + 1 + knotRow ps k := by
        simp only [knotRow, sum_range_succ', List.getD_cons_succ, List.getD_cons_zero]; omega
      rw [e]
      simp only [List.take_succ_cons, List.sum_cons, List.length_map, List.length_range, List.length_range']
      rw [show p + (ps.take k).sum + i - (a + p - a) = (ps.take k).sum + i by omega]
      rw [this]
      congr 1
      omega

/-- The cost counts the controls of every collocation point. -/
def CountsAll (scheme : String) (points : List ℕ) : Prop := scheme = "JGR" → ∀ p ∈ points, ¬ Even p

private theorem hArr_pos {ext : List ℝ} {n : ℕ} (hl : ext.length = n + 1) (hm : ∀ s < n, ext.getD s 0 < ext.getD (s + 1) 0) :
    n = (Ph.hArr ext).length ∧ ∀ d ∈ Ph.hArr ext, 0 < d := by
  have : (Ph.hArr ext).length = n := by simp [Ph.hArr, hl]
  refine ⟨this.symm, fun d hd => ?_⟩
  obtain ⟨i, hi, rfl⟩ := List.getElem_of_mem hd
  have := hm i (by omega)
  rw [List.getD_eq_getElem _ _ (by omega), List.getD_eq_getElem _ _ (by omega)] at this
  simp [Ph.hArr] 
  linarith

private theorem seg_best {F : Dyn} (hlin : LinearDyn F) {scheme : String} (hs : scheme ∈ implemented) {W : Ph.Weights}
    (hW : ∀ p, minPoints scheme ≤ p → ∃ w, getWeights p scheme 2 "u" = .ok w ∧ ∀ i < p, W p scheme 2 "u" i = w i)
    (mode : Mode) (order n_q n_u : ℕ) {points : List ℕ} {ext : List ℝ} (hp : ∀ p ∈ points, minPoints scheme ≤ p) (hJ : CountsAll scheme points)
    (hl : ext.length = points.length + 1) (hm : ∀ s < points.length, ext.getD s 0 < ext.getD (s + 1) 0)
    {C : Vars → (ℕ → ℕ → ℕ → ℝ) → Prop} (hC : phConstraints F mode scheme order n_q n_u points ext = .ok C) {S : Vars → Vars → Prop}
    (hun : ∀ x0 c v v' q q', C v q → C v' q' → Given order n_q n_u points x0 c v → Given order n_q n_u points x0 c v' → S v v') :
    ∃ J : Vars × (ℕ → ℕ → ℕ → ℝ) → ℝ, (∀ p, Ph.uSqCost W scheme points (Ph.hArr ext) (fun i (j : Fin n_u) => p.1.u i j) = .ok (J p)) ∧
      ∀ x0, OneBest (fun p => C p.1 p.2 ∧ StartsAt order n_q x0 p.1) J fun p r => S p.1 r.1 := by
  obtain ⟨hlen, hh⟩ := hArr_pos hl hm
  obtain ⟨rows, hrows⟩ : ∃ rows : ℕ → ℕ, rows = fun i => ((Ph.segRows 1 points).map (·.1)).flatten.getD i 0 := ⟨_, rfl⟩
  have hrow : ∀ k < points.length, ∀ i < points.getD k 0, rows ((points.take k).sum + i) = colRow points k i := by
    intro k hk i hi
    rw [hrows]
    simp only [List.getD_eq_getElem?_getD]
    rw [row_get points 1 k i hk hi, Option.getD_some]
    unfold colRow
    omega
  obtain ⟨J, hJ1, h1⟩ := C186_segments_partial hlin hs hW mode order n_q n_u hlen hp hh rows (fun i hi => by
    have hl : ((Ph.segRows 1 points).map (·.1)).flatten.length = points.sum := by
      rw [List.length_flatten, List.map_map]
      exact congrArg List.sum (Ph.C33_rows points).2.1
    rw [hrows]
    simp only [List.getD_eq_getElem?_getD]
    rw [List.getElem?_eq_getElem (by omega)]
    rfl) hC
  obtain ⟨J', hJ2, h2⟩ := C187_segments hlin hs hW mode order n_q n_u hp (fun d hd => (hh d hd).le) hC
  obtain rfl : J = J' := funext fun p => Except.ok.inj ((hJ1 p).symm.trans (hJ2 p))
  refine ⟨J, hJ1, fun x0 => oneBest h1 h2 ((keeps_startsAt order n_q x0).comp aff_fst) ?_⟩
  rintro ⟨v, q⟩ ⟨v', q'⟩ h hx h' hx' he
  refine hun x0 (fun s m k => v.u (colRow points s m) k) v v' q q' h h' ⟨hx, fun _ _ _ _ _ _ => rfl⟩ ⟨hx', fun s hs m hm k hk => ?_⟩
  have := he s hs m hm (fun hj => hJ hj.1 _ (by
    rw [List.getD_eq_getElem _ _ hs]
    exact List.getElem_mem _) hj.2.1) k hk
  rw [hrow s hs m hm] at this
  exact this.symm

/-- C188, segmented bottom-up problems. What is missing is "JGR" with an even number of points, for which it is false (`C186_refuted`). -/
theorem C188_bu_partial {scheme : String} (hs : scheme ∈ buImplemented) {W : Ph.Weights}
    (hW : ∀ p, minPoints scheme ≤ p → ∃ w, getWeights p scheme 2 "u" = .ok w ∧ ∀ i < p, W p scheme 2 "u" i = w i) {order : ℕ} (ho : 1 ≤ order) (B : ℕ) :
    ∃ Λ, 0 ≤ Λ ∧ ∀ (F : Dyn) (n_q n_u : ℕ) (points : List ℕ), LinearDyn F → Admissible scheme 0 B points → CountsAll scheme points →
      ((∀ p ∈ points, 2 ≤ p) ∨ scheme ∉ gaussLike) → ∀ ext : List ℝ, ext.length = points.length + 1 →
      ∀ A L h, Solved F order n_q A → 0 ≤ L → LipA A (fun _ => True) order n_q n_u L → ShortSegs Λ L h (fun s => ext.getD s 0) points.length →
      ∃ C, phConstraints F .bu scheme order n_q n_u points ext = .ok C ∧
        ∃ J : Vars × (ℕ → ℕ → ℕ → ℝ) → ℝ, (∀ p, Ph.uSqCost W scheme points (Ph.hArr ext) (fun i (j : Fin n_u) => p.1.u i j) = .ok (J p)) ∧
        ∀ x0, OneBest (fun p => C p.1 p.2 ∧ StartsAt order n_q x0 p.1) J fun p r => SameRows order n_q n_u points p.1 r.1 := by
  obtain ⟨Λ, hΛ0, hΛ⟩ := C172_bu hs ho B
  refine ⟨Λ, hΛ0, fun F n_q n_u points hlin hp hJ h1 ext hl A L h hF hL0 hL hm => ?_⟩
  obtain ⟨coll, hcoll, -⟩ := coll_choice (bu_imp hs).1 ho (fun p h => (hp.2 p h).1)
  obtain ⟨C, hC, hCv⟩ := hΛ F n_q n_u points hp h1 coll hcoll ext hl A L h hF hL0 hL hm
  exact ⟨C, hC, seg_best hlin (bu_imp hs).1 hW .bu order n_q n_u (fun p h => (hp.2 p h).1) hJ hl hm.inc hC fun x0 c => (hCv x0 c).2⟩

/-- C188, segmented top-down problems. -/
theorem C188_td_partial {scheme : String} (hs : scheme ∈ buImplemented) {W : Ph.Weights}
    (hW : ∀ p, minPoints scheme ≤ p → ∃ w, getWeights p scheme 2 "u" = .ok w ∧ ∀ i < p, W p scheme 2 "u" i = w i) {order : ℕ} (ho : 1 ≤ order) (B : ℕ) :
    ∃ Λ, 0 ≤ Λ ∧ ∀ (F : Dyn) (n_q n_u : ℕ) (points : List ℕ), LinearDyn F → Admissible scheme 0 B points → CountsAll scheme points →
      ∀ ext : List ℝ, ext.length = points.length + 1 →
      ∀ A L h, Solved F order n_q A → 0 ≤ L → LipA A (fun _ => True) order n_q n_u L → ShortSegs Λ L h (fun s => ext.getD s 0) points.length →
      ∃ C, phConstraints F .td scheme order n_q n_u points ext = .ok C ∧
        ∃ J : Vars × (ℕ → ℕ → ℕ → ℝ) → ℝ, (∀ p, Ph.uSqCost W scheme points (Ph.hArr ext) (fun i (j : Fin n_u) => p.1.u i j) = .ok (J p)) ∧
        ∀ x0, OneBest (fun p => C p.1 p.2 ∧ StartsAt order n_q x0 p.1) J fun p r => SameRows order n_q n_u points p.1 r.1 := by
  obtain ⟨Λ, hΛ0, hΛ⟩ := C172_td_partial hs ho B
  refine ⟨Λ, hΛ0, fun F n_q n_u points hlin hp hJ ext hl A L h hF hL0 hL hm => ?_⟩
  obtain ⟨coll, hcoll, -⟩ := coll_choice (bu_imp hs).1 ho (fun p h => (hp.2 p h).1)
  obtain ⟨C, hC, hCv⟩ := hΛ F n_q n_u points hp coll hcoll ext hl A L h hF hL0 hL hm
  exact ⟨C, hC, seg_best hlin (bu_imp hs).1 hW .td order n_q n_u (fun p h => (hp.2 p h).1) hJ hl hm.inc hC fun x0 c => (hCv x0 c).2⟩

/-- C188, segmented node based problems, the schemes with at most one node besides the collocation points. -/
theorem C188_node_partial {scheme : String} (hs : scheme ∈ implemented) (h2 : scheme ∉ gauss2) (hD2 : scheme ≠ "D2") {W : Ph.Weights}
    (hW : ∀ p, minPoints scheme ≤ p → ∃ w, getWeights p scheme 2 "u" = .ok w ∧ ∀ i < p, W p scheme 2 "u" i = w i) {order : ℕ} (ho : 1 ≤ order)
    (hord : order ≤ 2 ∨ scheme ∉ gaussLike ++ gaussInv) (B : ℕ) :
    ∃ Λ, 0 ≤ Λ ∧ ∀ (F : Dyn) (n_q n_u : ℕ) (points : List ℕ), LinearDyn F → Admissible scheme 0 B points → CountsAll scheme points →
      ∀ ext : List ℝ, ext.length = points.length + 1 →
      ∀ A L h, Solved F order n_q A → 1 ≤ L → LipA A (fun _ => True) order n_q n_u L → ShortSegs Λ L h (fun s => ext.getD s 0) points.length →
      ∃ C, phConstraints F .node scheme order n_q n_u points ext = .ok C ∧
        ∃ J : Vars × (ℕ → ℕ → ℕ → ℝ) → ℝ, (∀ p, Ph.uSqCost W scheme points (Ph.hArr ext) (fun i (j : Fin n_u) => p.1.u i j) = .ok (J p)) ∧
        ∀ x0, OneBest (fun p => C p.1 p.2 ∧ StartsAt order n_q x0 p.1) J fun p r => SameStates order n_q n_u points p.1 r.1 := by
  obtain ⟨Λ, hΛ0, hΛ⟩ := C174_unique hs h2 hD2 ho hord B
  refine ⟨Λ, hΛ0, fun F n_q n_u points hlin hp hJ ext hl A L h hF hL1 hL hm => ?_⟩
  obtain ⟨C, hC, hCv⟩ := hΛ F n_q n_u points hp ext hl A L h hF hL1 hL hm
  exact ⟨C, hC, seg_best hlin hs hW .node order n_q n_u (fun p h => (hp.2 p h).1) hJ hl hm.inc hC hCv⟩

/-- C188, segmented node based problems, the schemes with nodes at both ends besides the collocation points, from the order 2 on. -/
theorem C188_two_partial {scheme : String} (hs : scheme ∈ gauss2) {W : Ph.Weights}
    (hW : ∀ p, minPoints scheme ≤ p → ∃ w, getWeights p scheme 2 "u" = .ok w ∧ ∀ i < p, W p scheme 2 "u" i = w i) {order : ℕ} (ho : 2 ≤ order) (B : ℕ) :
    ∃ Λ, 0 ≤ Λ ∧ ∀ (F : Dyn) (n_q n_u : ℕ) (points : List ℕ), LinearDyn F → Admissible scheme 0 B points → CountsAll scheme points →
      ∀ ext : List ℝ, ext.length = points.length + 1 →
      ∀ A L h, Solved F order n_q A → 0 ≤ L → LipA A (fun _ => True) order n_q n_u L → ShortSegs Λ L h (fun s => ext.getD s 0) points.length →
      ∃ C, phConstraints F .node scheme order n_q n_u points ext = .ok C ∧
        ∃ J : Vars × (ℕ → ℕ → ℕ → ℝ) → ℝ, (∀ p, Ph.uSqCost W scheme points (Ph.hArr ext) (fun i (j : Fin n_u) => p.1.u i j) = .ok (J p)) ∧
        ∀ x0, OneBest (fun p => C p.1 p.2 ∧ StartsAt order n_q x0 p.1) J fun p r => SameStates order n_q n_u points p.1 r.1 := by
  obtain ⟨Λ, hΛ0, hΛ⟩ := C174_two_unique hs ho B
  refine ⟨Λ, hΛ0, fun F n_q n_u points hlin hp hJ ext hl A L h hF hL1 hL hm => ?_⟩
  obtain ⟨C, hC, hCv⟩ := hΛ F n_q n_u points hp ext hl A L h hF hL1 hL hm
  exact ⟨C, hC, seg_best hlin (by rw [implemented]; simp [hs]) hW .node order n_q n_u (fun p h => (hp.2 p h).1) hJ hl hm.inc hC hCv⟩

/-! ## The hypotheses hold -/

theorem linear_velocity : LinearDyn velocityDyn := by
  intro s x x' xd xd' u u' l l' h h' r hr
  simp only [velocityDyn, zero, List.mem_singleton, forall_eq] at h h' hr
  subst hr
  linear_combination s * h + (1 - s) * h'

private theorem velocity_lip : LipA (fun _ u j => u j) (fun _ => True) 1 1 1 0 := by
  intro ξ η u w d _ _ _ h j hj
  simp [h j hj]

/-- From 0 to 1 in one unit of time with `q' = u`, four steps and "trapz": there is one best motion. -/
example : ∃ P, equiConstraints velocityDyn "trapz" 4 1 1 1 0 1 = .ok P ∧ ∃ p : (Vars × Vars) × (ℕ → ℕ → ℝ),
    (P p.1.1 p.1.2 ∧ p.1.1.x 0 0 = 0 ∧ p.1.1.x 4 0 = 1) ∧ ∀ w : (Vars × Vars) × (ℕ → ℕ → ℝ), P w.1.1 w.1.2 → w.1.1.x 0 0 = 0 → w.1.1.x 4 0 = 1 →
      Costs.uSqCost "trapz" (1 - 0) 4 (stored 1 p) ≤ Costs.uSqCost "trapz" (1 - 0) 4 (stored 1 w) := by
  obtain ⟨P, hP, h⟩ := C188_equispaced (F := velocityDyn) (N := 4) (n_u := 1) (t0 := 0) (t1 := 1) (L := 0) linear_velocity .trapz one_pos (by norm_num) one_pos
    velocity_solved le_rfl velocity_lip (by norm_num)
  have hP' : P = _ := Except.ok.inj (hP.symm.trans rfl)
  obtain ⟨p, ⟨⟨⟨p1, p2⟩, p3⟩, p4, p5⟩, -⟩ := h (fun _ _ => 0) (fun p => p.1.1.x 4 0 = 1) (fun s v w hv hw => by
      change s * v.1.1.x 4 0 + (1 - s) * w.1.1.x 4 0 = 1
      rw [hv, hw]; ring)
    ⟨((⟨fun i _ => i / 4, fun _ _ => 1, fun _ _ => 1, fun _ _ => 0⟩, ⟨0, 0, 0, 0⟩), 0), ⟨⟨by
      rw [hP']
      refine ⟨fun i hi j hj p hp => ?_, fun i _ => by simp [zero, velocityDyn], fun hc => absurd (show contains "trapz" "hs" = true from hc) (by decide)⟩
      interval_cases p
      simp [Vars.lev, trapzAccelRestr, shiftIn]
      ring, by simp [Costs.uSqConstraint]⟩, fun p hp j hj => by interval_cases p; simp [Vars.lev]⟩, by norm_num⟩
  refine ⟨P, hP, p, ⟨p1, ?_, p4⟩, fun w w1 w2 w3 => p5 w ⟨⟨w1, by simp [Costs.uSqConstraint]⟩, ?_⟩ w3⟩
  · simpa [Vars.lev] using p3 0 one_pos 0 one_pos
  · intro p hp j hj
    interval_cases p
    interval_cases j
    simpa [Vars.lev] using w2

/-- Two segments of one unit of time in all; the weights are those that the library works out. -/
example {Λ : ℝ} : "LGR" ∈ buImplemented ∧ LinearDyn velocityDyn ∧ Admissible "LGR" 0 2 [1, 2] ∧ CountsAll "LGR" [1, 2] ∧ "LGR" ∉ gaussLike ∧
    Solved velocityDyn 1 1 (fun _ u j => u j) ∧ LipA (fun _ u j => u j) (fun _ => True) 1 1 1 0 ∧
    ShortSegs Λ 0 (1 / 2) (fun s => ([0, 1 / 2, 1] : List ℝ).getD s 0) 2 ∧
    ∃ W : Ph.Weights, ∀ p, minPoints "LGR" ≤ p → ∃ w, getWeights p "LGR" 2 "u" = .ok w ∧ ∀ i < p, W p "LGR" 2 "u" i = w i := by
  refine ⟨by decide, linear_velocity, ⟨by simp, by simp [minPoints]⟩, fun h => absurd h (by decide), by decide, velocity_solved, velocity_lip, ⟨?_, ?_, le_rfl, by norm_num⟩, ?_⟩
  · intro s hs
    interval_cases s <;> norm_num
  · intro s hs
    interval_cases s <;> norm_num
  · have : ∀ p, ∃ w : ℕ → ℝ, minPoints "LGR" ≤ p → getWeights p "LGR" 2 "u" = .ok w := by
      intro p
      by_cases h : minPoints "LGR" ≤ p
      · exact ⟨_, fun _ => rfl⟩
      · exact ⟨fun _ => 0, fun k => absurd k h⟩
    choose w hw using this
    exact ⟨fun p _ _ _ i => w p i, fun p hp => ⟨w p, hw p hp, fun _ _ => rfl⟩⟩

end Chords.Blend
