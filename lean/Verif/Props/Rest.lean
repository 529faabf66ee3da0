import Verif.Props.Together
import Verif.Props.PhNode

/-! # C200: the rest of a segmented motion is a motion, and any other continuation from the same state may take its place; C201: the same for node based problems -/

namespace Chords.Rest
open Finset Polynomial Chords.Points Chords.Bary Chords.BuTd Chords.PhScheme Chords.Problem Chords.Spec Chords.Props Chords.TimeScale

/-- The rows after the first segment, which has `p` collocation points: one row of start and `p` rows before, and `p` rows of multipliers. -/
def rest (p : ℕ) (v : Vars) : Vars := ⟨fun i => v.x (p + 1 + i), fun i => v.xd (p + 1 + i), fun i => v.u (p + 1 + i), fun i => v.lam (p + i)⟩

/-- The first segment of `v`, and then `w`. -/
def follow (p : ℕ) (v w : Vars) : Vars := ⟨fun i => if i < p + 1 then v.x i else w.x (i - (p + 1)), fun i => if i < p + 1 then v.xd i else w.xd (i - (p + 1)),
  fun i => if i < p + 1 then v.u i else w.u (i - (p + 1)), fun i => if i < p then v.lam i else w.lam (i - p)⟩

theorem rest_follow (p : ℕ) (v w : Vars) : rest p (follow p v w) = w := by
  have h : ∀ i, ¬ p + 1 + i < p + 1 := fun i => by omega
  simp [rest, follow, h, -Order.lt_add_one_iff]

private theorem knot (p : ℕ) (ps : List ℕ) (s : ℕ) : knotRow (p :: ps) (s + 1) = p + 1 + knotRow ps s := by
  unfold knotRow
  rw [Finset.sum_range_succ']
  simp [add_comm]

private theorem col (p : ℕ) (ps : List ℕ) (s m : ℕ) : colRow (p :: ps) (s + 1) m = p + 1 + colRow ps s m := by
  unfold colRow
  rw [knot]
  ring

private theorem before (p : ℕ) (ps : List ℕ) (s : ℕ) : collBefore (p :: ps) (s + 1) = p + collBefore ps s := by
  unfold collBefore
  rw [Finset.sum_range_succ']
  simp [add_comm]

section
variable {F : Dyn} {v w : Vars} {order n_q n_u p : ℕ} {ps : List ℕ} {coll : ℕ → List ℝ} {t : ℝ} {ext : List ℝ}

private theorem poly_rest {s : ℕ} {Q : ℕ → ℝ[X]} : SegPoly v order n_q (p :: ps) coll (fun s => (t :: ext).getD s 0) (s + 1) Q ↔
    SegPoly (rest p v) order n_q ps coll (fun s => ext.getD s 0) s Q := by
  unfold SegPoly
  simp only [knot, col, List.getD_cons_succ]
  rfl

private theorem shift_rest {s : ℕ} : KnotShift v order n_q (p :: ps) (s + 1) ↔ KnotShift (rest p v) order n_q ps s := by
  unfold KnotShift
  simp only [knot]
  rfl

private theorem coll_rest : PhCollocated F v (p :: ps) ↔ (∀ m < p, zero (F (v.x (1 + m)) (v.xd (1 + m)) (v.u (1 + m)) (v.lam m))) ∧ PhCollocated F (rest p v) ps := by
  have z : ∀ m, colRow (p :: ps) 0 m = 1 + m := fun m => by simp [colRow, knotRow]
  have b : collBefore (p :: ps) 0 = 0 := by simp [collBefore]
  unfold PhCollocated
  constructor
  · intro h
    refine ⟨fun m hm => ?_, fun s hs m hm => ?_⟩
    · have := h 0 (by simp) m (by simpa using hm)
      simpa [z, b] using this
    · have := h (s + 1) (by simpa using hs) m (by simpa using hm)
      rw [col, before, add_assoc p (collBefore ps s)] at this
      exact this
  · rintro ⟨h0, h⟩ s hs m hm
    cases s with
    | zero => simpa [z, b] using h0 m (by simpa using hm)
    | succ s =>
      have := h s (by simpa using hs) m (by simpa using hm)
      rw [col, before, add_assoc p (collBefore ps s)]
      exact this

private theorem ctrl_rest : PhControls v n_u (p :: ps) coll (fun s => (t :: ext).getD s 0) ↔
    (∀ c < n_u, ∃ r : ℝ[X], r.degree < p ∧ (∀ m < p, v.u (1 + m) c = r.eval (tauToT (arr (coll p) m) t (ext.getD 0 0))) ∧ v.u 0 c = r.eval t ∧
      (ps = [] → v.u (p + 1) c = r.eval (ext.getD 0 0))) ∧
    PhControls (rest p v) n_u ps coll (fun s => ext.getD s 0) := by
  have z : ∀ m, colRow (p :: ps) 0 m = 1 + m := fun m => by simp [colRow, knotRow]
  have k0 : knotRow (p :: ps) 0 = 0 := by simp [knotRow]
  have k1 : knotRow (p :: ps) (0 + 1) = p + 1 := by simp [knotRow]
  unfold PhControls
  constructor
  · intro h
    refine ⟨fun c hc => ?_, fun s hs c hc => ?_⟩
    · obtain ⟨r, a1, a2, a3, a4⟩ := h 0 (by simp) c hc
      simp only [z, k0, k1, List.getD_cons_zero, List.getD_cons_succ] at a1 a2 a3 a4
      exact ⟨r, a1, a2, a3, fun e => a4 (by simp [e])⟩
    · obtain ⟨r, a1, a2, a3, a4⟩ := h (s + 1) (by simpa using hs) c hc
      simp only [knot, col, List.getD_cons_succ] at a1 a2 a3 a4
      exact ⟨r, a1, a2, a3, fun e => a4 (by simp [e])⟩
  · rintro ⟨h0, h⟩ s hs c hc
    cases s with
    | zero =>
      obtain ⟨r, a1, a2, a3, a4⟩ := h0 c hc
      refine ⟨r, a1, ?_, ?_, fun e => ?_⟩
      · simpa only [z, List.getD_cons_zero, List.getD_cons_succ] using a2
      · rw [k0]; exact a3
      · have : ps = [] := by simpa using e
        rw [k1]; exact a4 this
    | succ s =>
      obtain ⟨r, a1, a2, a3, a4⟩ := h s (by simpa using hs) c hc
      refine ⟨r, a1, ?_, ?_, fun e => ?_⟩
      · simp only [col, List.getD_cons_succ]; exact a2
      · simp only [knot, List.getD_cons_succ]; exact a3
      · simp only [knot, List.getD_cons_succ]
        exact a4 (by simpa using e)

/-- The rows of the first segment and the state at its end. -/
private def Agree (p : ℕ) (v w : Vars) : Prop := (∀ i < p + 1, v.x i = w.x i ∧ v.xd i = w.xd i ∧ v.u i = w.u i) ∧ (∀ i < p, v.lam i = w.lam i) ∧ v.x (p + 1) = w.x (p + 1)

private theorem agree_follow (h : v.x (p + 1) = w.x 0) : Agree p v (follow p v w) := by
  refine ⟨fun i hi => ?_, fun i hi => ?_, ?_⟩
  · simp only [follow, hi, if_true, and_self]
  · simp only [follow, hi, if_true]
  · simp only [follow, lt_irrefl, if_false, Nat.sub_self, h]

private theorem first_poly {Q : ℕ → ℝ[X]} (ha : Agree p v w) (h : SegPoly v order n_q (p :: ps) coll (fun s => (t :: ext).getD s 0) 0 Q) :
    SegPoly w order n_q (p :: ps) coll (fun s => (t :: ext).getD s 0) 0 Q := by
  have k0 : knotRow (p :: ps) 0 = 0 := by simp [knotRow]
  have k1 : knotRow (p :: ps) (0 + 1) = p + 1 := by simp [knotRow]
  have z : ∀ m, colRow (p :: ps) 0 m = 1 + m := fun m => by simp [colRow, knotRow]
  have l : ∀ i < p + 1, ∀ k j, w.lev order n_q k i j = v.lev order n_q k i j := fun i hi k j => by
    unfold Vars.lev
    rw [(ha.1 i hi).1, (ha.1 i hi).2.1]
  have l1 : ∀ k < order, ∀ j, w.lev order n_q k (p + 1) j = v.lev order n_q k (p + 1) j := fun k hk j => by
    unfold Vars.lev
    rw [if_pos hk, if_pos hk, ha.2.2]
  intro j hj
  obtain ⟨a, b, c⟩ := h j hj
  refine ⟨a, fun k hk => ?_, fun k hk m hm => ?_⟩
  · rw [k0, k1, l 0 (by omega), l1 k hk, ← k1]
    have := b k hk
    rw [k0] at this
    exact this
  · have hm' : m < p := by simpa using hm
    have := c k hk m hm
    rw [z] at this ⊢
    rw [l (1 + m) (by omega)]
    exact this

private theorem first_coll (ha : Agree p v w) (h : ∀ m < p, zero (F (v.x (1 + m)) (v.xd (1 + m)) (v.u (1 + m)) (v.lam m))) :
    ∀ m < p, zero (F (w.x (1 + m)) (w.xd (1 + m)) (w.u (1 + m)) (w.lam m)) := fun m hm => by
  obtain ⟨h1, h2, h3⟩ := ha.1 (1 + m) (by omega)
  rw [← h1, ← h2, ← h3, ← ha.2.1 m hm]
  exact h m hm

private theorem first_shift (ha : Agree p v w) (h : KnotShift v order n_q (p :: ps) 0) : KnotShift w order n_q (p :: ps) 0 := by
  have k0 : knotRow (p :: ps) 0 = 0 := by simp [knotRow]
  unfold KnotShift at h ⊢
  rw [k0] at h ⊢
  rw [← (ha.1 0 (by omega)).1, ← (ha.1 0 (by omega)).2.1]
  exact h

private theorem first_ctrl (h0 : ps ≠ []) {T : ℝ} (ha : Agree p v w) (h : ∀ c < n_u, ∃ r : ℝ[X], r.degree < p ∧ (∀ m < p, v.u (1 + m) c = r.eval (tauToT (arr (coll p) m) t T)) ∧ v.u 0 c = r.eval t ∧
      (ps = [] → v.u (p + 1) c = r.eval T)) :
    ∀ c < n_u, ∃ r : ℝ[X], r.degree < p ∧ (∀ m < p, w.u (1 + m) c = r.eval (tauToT (arr (coll p) m) t T)) ∧ w.u 0 c = r.eval t ∧ (ps = [] → w.u (p + 1) c = r.eval T) := by
  intro c hc
  obtain ⟨r, a1, a2, a3, -⟩ := h c hc
  exact ⟨r, a1, fun m hm => by rw [← (ha.1 (1 + m) (by omega)).2.2]; exact a2 m hm, by rw [← (ha.1 0 (by omega)).2.2]; exact a3, fun e => absurd e h0⟩

variable {scheme : String}

/-- C200, bottom-up problems: without its first segment a motion is a motion of the problem of the other segments, and any motion of that problem from the
same state may follow the first segment. -/
theorem C200_bu (hs : scheme ∈ buImplemented) (ho : 1 ≤ order) (F : Dyn) (n_q n_u : ℕ) (h0 : ps ≠ []) (hN : ∀ q ∈ p :: ps, minPoints scheme ≤ q)
    (h1 : (∀ q ∈ p :: ps, 2 ≤ q) ∨ scheme ∉ gaussLike) (hcoll : ∀ q ∈ p :: ps, collPoints q scheme order = .ok (coll q)) (hl : (t :: ext).length = (p :: ps).length + 1)
    (ht : ∀ s < (p :: ps).length, (t :: ext).getD s 0 ≠ (t :: ext).getD (s + 1) 0) :
    ∃ C C', phConstraints F .bu scheme order n_q n_u (p :: ps) (t :: ext) = .ok C ∧ phConstraints F .bu scheme order n_q n_u ps ext = .ok C' ∧
      (∀ v q q', C v q → C' (rest p v) q') ∧ ∀ v w q q' q'', C v q → C' w q' → v.x (p + 1) = w.x 0 → C (follow p v w) q'' := by
  obtain ⟨C, hC, hv⟩ := C99_feasible hs ho F n_q n_u (by simp) hN h1 hcoll hl ht
  obtain ⟨C', hC', hv'⟩ := C99_feasible hs ho F n_q n_u h0 (fun q hq => hN q (by simp [hq])) (h1.imp_left fun h q hq => h q (by simp [hq])) (fun q hq => hcoll q (by simp [hq]))
    (ext := ext) (by simpa using hl) (fun s h => by simpa using ht (s + 1) (by simpa using h))
  have k0 : knotRow (p :: ps) 0 = 0 := by simp [knotRow]
  refine ⟨C, C', hC, hC', fun v q q' h => ?_, fun v w q q' q'' h h' hx => ?_⟩
  · obtain ⟨⟨Q, hQ⟩, hK, hF, hU⟩ := (hv v q).1 h
    refine (hv' _ q').2 ⟨⟨fun s => Q (s + 1), fun s hs => ?_⟩, fun s hs => shift_rest.1 (hK (s + 1) (by simpa using hs)), (coll_rest.1 hF).2, (ctrl_rest.1 hU).2⟩
    obtain ⟨a, b, c⟩ := hQ (s + 1) (by simpa using hs)
    refine ⟨poly_rest.1 a, fun j hj => ?_, fun e j hj => ?_⟩
    · have := b j hj
      rw [knot, List.getD_cons_succ] at this
      exact this
    · have := c (by simp [e]) j hj
      rw [knot, List.getD_cons_succ] at this
      exact this
  · obtain ⟨⟨Q, hQ⟩, hK, hF, hU⟩ := (hv v q).1 h
    obtain ⟨⟨R, hR⟩, hK', hF', hU'⟩ := (hv' w q').1 h'
    have ha := agree_follow hx
    refine (hv _ q'').2 ⟨⟨fun s => match s with | 0 => Q 0 | s + 1 => R s, fun s hs => ?_⟩, fun s hs => ?_, coll_rest.2 ⟨first_coll ha (coll_rest.1 hF).1, by rwa [rest_follow]⟩,
      ctrl_rest.2 ⟨first_ctrl h0 ha (ctrl_rest.1 hU).1, by rwa [rest_follow]⟩⟩
    · cases s with
      | zero =>
        obtain ⟨a, b, c⟩ := hQ 0 (by simp)
        refine ⟨first_poly ha a, fun j hj => ?_, fun e => absurd (List.length_eq_zero_iff.1 (by simpa using e.symm)) h0⟩
        have := b j hj
        rw [k0] at this ⊢
        rw [← this]
        unfold Vars.lev
        rw [(ha.1 0 (by omega)).1, (ha.1 0 (by omega)).2.1]
      | succ s =>
        obtain ⟨a, b, c⟩ := hR s (by simpa using hs)
        refine ⟨poly_rest.2 (by rwa [rest_follow]), fun j hj => ?_, fun e j hj => ?_⟩
        · have := b j hj
          rw [← rest_follow p v w] at this
          rw [knot, List.getD_cons_succ]
          exact this
        · have := c (by simpa using e) j hj
          rw [← rest_follow p v w] at this
          rw [knot, List.getD_cons_succ]
          exact this
    · cases s with
      | zero => exact first_shift ha (hK 0 (by simp))
      | succ s => exact shift_rest.2 (by rw [rest_follow]; exact hK' s (by simpa using hs))

/-- C200, top-down problems: the same, where the continuation starts also with the same derivatives. -/
theorem C200_td (hs : scheme ∈ buImplemented) (ho : 1 ≤ order) (F : Dyn) (n_q n_u : ℕ) (h0 : ps ≠ []) (hN : ∀ q ∈ p :: ps, minPoints scheme ≤ q)
    (hcoll : ∀ q ∈ p :: ps, collPoints q scheme order = .ok (coll q)) (hl : (t :: ext).length = (p :: ps).length + 1)
    (ht : ∀ s < (p :: ps).length, (t :: ext).getD s 0 ≠ (t :: ext).getD (s + 1) 0) :
    ∃ C C', phConstraints F .td scheme order n_q n_u (p :: ps) (t :: ext) = .ok C ∧ phConstraints F .td scheme order n_q n_u ps ext = .ok C' ∧
      (∀ v, (∃ q, C v q) → ∃ q, C' (rest p v) q) ∧
      ∀ v w, (∃ q, C v q) → (∃ q, C' w q) → v.x (p + 1) = w.x 0 → v.xd (p + 1) = w.xd 0 → ∃ q, C (follow p v w) q := by
  obtain ⟨C, hC, hv⟩ := C100_feasible hs ho F n_q n_u (by simp) hN hcoll hl ht
  obtain ⟨C', hC', hv'⟩ := C100_feasible hs ho F n_q n_u h0 (fun q hq => hN q (by simp [hq])) (fun q hq => hcoll q (by simp [hq]))
    (ext := ext) (by simpa using hl) (fun s h => by simpa using ht (s + 1) (by simpa using h))
  have k0 : knotRow (p :: ps) 0 = 0 := by simp [knotRow]
  have k1 : knotRow (p :: ps) (0 + 1) = p + 1 := by simp [knotRow]
  refine ⟨C, C', hC, hC', fun v h => ?_, fun v w h h' hx hxd => ?_⟩
  · obtain ⟨⟨Q, hQ⟩, hK, hF, hU⟩ := (hv v).1 h
    refine (hv' _).2 ⟨⟨fun s => Q (s + 1), fun s hs => ?_⟩, fun s hs => shift_rest.1 (hK (s + 1) (by simpa using hs)), (coll_rest.1 hF).2, (ctrl_rest.1 hU).2⟩
    obtain ⟨a, b⟩ := hQ (s + 1) (by simpa using hs)
    refine ⟨poly_rest.1 a, fun j hj => ?_⟩
    have := b j hj
    rw [knot, knot, List.getD_cons_succ, List.getD_cons_succ] at this
    exact this
  · obtain ⟨⟨Q, hQ⟩, hK, hF, hU⟩ := (hv v).1 h
    obtain ⟨⟨R, hR⟩, hK', hF', hU'⟩ := (hv' w).1 h'
    have ha := agree_follow hx
    refine (hv _).2 ⟨⟨fun s => match s with | 0 => Q 0 | s + 1 => R s, fun s hs => ?_⟩, fun s hs => ?_, coll_rest.2 ⟨first_coll ha (coll_rest.1 hF).1, by rwa [rest_follow]⟩,
      ctrl_rest.2 ⟨first_ctrl h0 ha (ctrl_rest.1 hU).1, by rwa [rest_follow]⟩⟩
    · cases s with
      | zero =>
        obtain ⟨a, b⟩ := hQ 0 (by simp)
        refine ⟨first_poly ha a, fun j hj => ?_⟩
        have := b j hj
        have e : (follow p v w).xd (p + 1) = v.xd (p + 1) := by simp only [follow, lt_irrefl, if_false, Nat.sub_self, hxd]
        rw [k0, k1] at this ⊢
        refine ⟨this.1 ▸ ?_, this.2 ▸ ?_⟩
        · unfold Vars.lev
          rw [(ha.1 0 (by omega)).1, (ha.1 0 (by omega)).2.1]
        · unfold Vars.lev
          rw [e, ← ha.2.2]
      | succ s =>
        obtain ⟨a, b⟩ := hR s (by simpa using hs)
        refine ⟨poly_rest.2 (by rwa [rest_follow]), fun j hj => ?_⟩
        have := b j hj
        rw [← rest_follow p v w] at this
        rw [knot, knot, List.getD_cons_succ, List.getD_cons_succ]
        exact this
    · cases s with
      | zero => exact first_shift ha (hK 0 (by simp))
      | succ s => exact shift_rest.2 (by rw [rest_follow]; exact hK' s (by simpa using hs))

end

/-! ## The cost -/

private theorem rows_shift (a : ℕ) (ps : List ℕ) : ∀ b, ((Ph.segRows (a + b) ps).map (·.1)).flatten = (((Ph.segRows b ps).map (·.1)).flatten).map (a + ·) := by
  induction ps with
  | nil => intro b; simp [Ph.segRows]
  | cons p ps ih =>
    intro b
    have := ih (b + p + 1)
    simp only [Ph.segRows, List.map_cons, List.flatten_cons, List.map_append]
    rw [show a + b + p + 1 = a + (b + p + 1) by ring, this]
    congr 1
    rw [List.map_add_range']
    congr 1
    omega

private theorem rows_len (ps : List ℕ) : ∀ b, ((Ph.segRows b ps).map (·.1)).flatten.length = ps.sum := by
  induction ps with
  | nil => intro b; simp [Ph.segRows]
  | cons p ps ih => intro b; simp only [Ph.segRows, List.map_cons, List.flatten_cons, List.length_append, ih]; simp

private theorem squares_shift {m : ℕ} (W : ℕ → ℕ → ℝ) (f : ℕ → Fin m → ℝ) (k : ℕ) (ps : List ℕ) : ∀ (hs : List ℝ) (off : ℕ),
    Ph.segmentSquares W f (k + off) ps hs = Ph.segmentSquares W (fun i => f (k + i)) off ps hs := by
  induction ps with
  | nil => intro hs off; simp [Ph.segmentSquares]
  | cons p ps ih =>
    intro hs off
    cases hs with
    | nil => simp [Ph.segmentSquares]
    | cons h hs => simp only [Ph.segmentSquares, add_assoc, ← ih]

/-- C200: the cost is that of the first segment and that of the rest, and neither raises an error. -/
theorem C200_cost {m : ℕ} (w : Ph.Weights) (scheme : String) (p : ℕ) (ps : List ℕ) (h : ℝ) (hs : List ℝ) (u : ℕ → Fin m → ℝ) :
    ∃ a b, Ph.uSqCost w scheme [p] [h] u = .ok a ∧ Ph.uSqCost w scheme ps hs (fun i => u (p + 1 + i)) = .ok b ∧ Ph.uSqCost w scheme (p :: ps) (h :: hs) u = .ok (a + b) := by
  set L := ((Ph.segRows 1 ps).map (·.1)).flatten with hL
  have c1 := Ph.C35_u_sq_cost w scheme [p] [h] u (fun i => 1 + i) (by
    intro i hi
    have hi : i < p := by simpa using hi
    simp [Ph.segRows, hi])
  have c2 := Ph.C35_u_sq_cost w scheme ps hs (fun i => u (p + 1 + i)) (fun i => L.getD i 0) (by
    intro i hi
    have : i < L.length := by rw [hL, rows_len]; exact hi
    simp [← hL, List.getD_eq_getElem?_getD, List.getElem?_eq_getElem this])
  have c3 := Ph.C35_u_sq_cost w scheme (p :: ps) (h :: hs) u (fun i => if i < p then 1 + i else p + 1 + L.getD (i - p) 0) (by
    intro i hi
    have e : ((Ph.segRows 1 (p :: ps)).map (·.1)).flatten = List.range' 1 p ++ L.map (p + 1 + ·) := by
      rw [hL, ← rows_shift]
      simp only [Ph.segRows, List.map_cons, List.flatten_cons]
      congr 2
      · omega
      · congr 2
        omega
    rw [e]
    by_cases hp : i < p
    · rw [List.getElem?_append_left (by simpa using hp)]
      simp [hp]
    · have : i - p < L.length := by rw [hL, rows_len]; simp at hi; omega
      rw [List.getElem?_append_right (by simpa using hp)]
      simp [hp, List.getD_eq_getElem?_getD, List.getElem?_eq_getElem this])
  refine ⟨_, _, c1, c2, ?_⟩
  rw [c3]
  congr 1
  simp only [Ph.segmentSquares, zero_add, add_zero]
  congr 1
  · congr 1
    refine sum_congr rfl fun j _ => sum_congr rfl fun i hi => ?_
    rw [if_pos (mem_range.1 hi)]
  · have := squares_shift (fun p i => w p scheme 2 "u" i) (fun i => u (if i < p then 1 + i else p + 1 + L.getD (i - p) 0)) p ps hs 0
    rw [add_zero] at this
    rw [this]
    congr 1
    funext i
    simp

/-! ## The best motions -/

/-- The controls as the cost receives them. -/
def ctrl (n : ℕ) (v : Vars) : ℕ → Fin n → ℝ := fun i c => v.u i c

/-- `v` costs no more than any other trajectory of `P` between the same states; `e` is the row of the end. With `a` also the derivatives at the start are
given, and with `z` those at the end. -/
def Best (a z : Bool) (P : Vars → Prop) (cost : Vars → Except Ph.Err ℝ) (e : ℕ) (v : Vars) : Prop :=
  P v ∧ ∀ w c d, P w → v.x 0 = w.x 0 → (a = true → v.xd 0 = w.xd 0) → v.x e = w.x e → (z = true → v.xd e = w.xd e) → cost v = .ok c → cost w = .ok d → c ≤ d

private theorem best_rest {a a' z : Bool} {P P' : Vars → Prop} {p : ℕ} {ps : List ℕ} (h1 : ∀ v, P v → P' (rest p v))
    (h2 : ∀ v w, P v → P' w → v.x (p + 1) = w.x 0 → (a' = true → v.xd (p + 1) = w.xd 0) → P (follow p v w)) (W : Ph.Weights) (scheme : String) (h : ℝ) (hs : List ℝ) (n e : ℕ) {v : Vars}
    (hb : Best a z P (fun v => Ph.uSqCost W scheme (p :: ps) (h :: hs) (ctrl n v)) (p + 1 + e) v) :
    Best a' z P' (fun v => Ph.uSqCost W scheme ps hs (ctrl n v)) e (rest p v) := by
  refine ⟨h1 v hb.1, fun w c d hw x0 d0 xe de ha hb' => ?_⟩
  obtain ⟨a1, b1, e1, e2, e3⟩ := C200_cost W scheme p ps h hs (ctrl n v)
  obtain ⟨a2, b2, f1, f2, f3⟩ := C200_cost W scheme p ps h hs (ctrl n (follow p v w))
  have g : a1 = a2 := by
    have r : ∀ i < [p].sum, ((Ph.segRows 1 [p]).map (·.1)).flatten[i]? = some (1 + i) := by
      intro i hi
      have hi : i < p := by simpa using hi
      simp [Ph.segRows, hi]
    rw [Ph.C35_u_sq_cost W scheme [p] [h] _ (fun i => 1 + i) r] at e1 f1
    rw [← Except.ok.inj e1, ← Except.ok.inj f1]
    simp only [Ph.segmentSquares, zero_add]
    congr 2
    refine sum_congr rfl fun j _ => sum_congr rfl fun i hi => ?_
    have : 1 + i < p + 1 := by have := mem_range.1 hi; omega
    simp only [ctrl, follow, if_pos this]
  have ea : b1 = c := Except.ok.inj (e2.symm.trans ha)
  have eb : b2 = d := by
    have : (fun i => ctrl n (follow p v w) (p + 1 + i)) = ctrl n w := by
      have := rest_follow p v w
      exact congrArg (ctrl n) this
    rw [this] at f2
    exact Except.ok.inj (f2.symm.trans hb')
  have ne : ¬ p + 1 + e < p + 1 := by omega
  have := hb.2 (follow p v w) _ _ (h2 v w hb.1 hw x0 d0) (by simp [follow]) (fun _ => by simp [follow])
    (by simp only [follow, if_neg ne, Nat.add_sub_cancel_left]; exact xe) (fun hz => by simp only [follow, if_neg ne, Nat.add_sub_cancel_left]; exact de hz) e3 f3
  linarith

section
variable {order n_q n_u p : ℕ} {ps : List ℕ} {coll : ℕ → List ℝ} {t : ℝ} {ext : List ℝ} {scheme : String} {F : Dyn}

variable {a z : Bool} {C C' : Vars → (ℕ → ℕ → ℕ → ℝ) → Prop}

/-- C200: the rest of a best bottom-up motion is best among the motions from its state. -/
theorem C200_optimal_bu (hs : scheme ∈ buImplemented) (ho : 1 ≤ order) (h0 : ps ≠ []) (hN : ∀ q ∈ p :: ps, minPoints scheme ≤ q)
    (h1 : (∀ q ∈ p :: ps, 2 ≤ q) ∨ scheme ∉ gaussLike) (hcoll : ∀ q ∈ p :: ps, collPoints q scheme order = .ok (coll q)) (hl : (t :: ext).length = (p :: ps).length + 1)
    (ht : ∀ s < (p :: ps).length, (t :: ext).getD s 0 ≠ (t :: ext).getD (s + 1) 0) (hC : phConstraints F .bu scheme order n_q n_u (p :: ps) (t :: ext) = .ok C)
    (hC' : phConstraints F .bu scheme order n_q n_u ps ext = .ok C') (W : Ph.Weights) {v : Vars}
    (hb : Best a z (fun v => ∃ q, C v q) (fun v => Ph.uSqCost W scheme (p :: ps) (Ph.hArr (t :: ext)) (ctrl n_u v)) ((p :: ps).sum + (p :: ps).length) v) :
    Best false z (fun v => ∃ q, C' v q) (fun v => Ph.uSqCost W scheme ps (Ph.hArr ext) (ctrl n_u v)) (ps.sum + ps.length) (rest p v) := by
  obtain ⟨P, P', hP, hP', r1, r2⟩ := C200_bu hs ho F n_q n_u h0 hN h1 hcoll hl ht
  obtain rfl := Except.ok.inj (hC.symm.trans hP)
  obtain rfl := Except.ok.inj (hC'.symm.trans hP')
  obtain ⟨d, ds, rfl⟩ : ∃ d ds, ext = d :: ds := by
    cases ext with
    | nil => simp at hl
    | cons d ds => exact ⟨d, ds, rfl⟩
  rw [show (p :: ps).sum + (p :: ps).length = p + 1 + (ps.sum + ps.length) by simp; ring] at hb
  exact best_rest (fun v ⟨q, h⟩ => ⟨q, r1 v q q h⟩) (fun v w ⟨q, h⟩ ⟨q', h'⟩ e _ => ⟨q, r2 v w q q' q h h' e⟩) W scheme _ _ n_u _ hb

/-- C200: the rest of a best top-down motion is best among the motions from its state with its derivatives. -/
theorem C200_optimal_td (hs : scheme ∈ buImplemented) (ho : 1 ≤ order) (h0 : ps ≠ []) (hN : ∀ q ∈ p :: ps, minPoints scheme ≤ q)
    (hcoll : ∀ q ∈ p :: ps, collPoints q scheme order = .ok (coll q)) (hl : (t :: ext).length = (p :: ps).length + 1)
    (ht : ∀ s < (p :: ps).length, (t :: ext).getD s 0 ≠ (t :: ext).getD (s + 1) 0) (hC : phConstraints F .td scheme order n_q n_u (p :: ps) (t :: ext) = .ok C)
    (hC' : phConstraints F .td scheme order n_q n_u ps ext = .ok C') (W : Ph.Weights) {v : Vars}
    (hb : Best a z (fun v => ∃ q, C v q) (fun v => Ph.uSqCost W scheme (p :: ps) (Ph.hArr (t :: ext)) (ctrl n_u v)) ((p :: ps).sum + (p :: ps).length) v) :
    Best true z (fun v => ∃ q, C' v q) (fun v => Ph.uSqCost W scheme ps (Ph.hArr ext) (ctrl n_u v)) (ps.sum + ps.length) (rest p v) := by
  obtain ⟨P, P', hP, hP', r1, r2⟩ := C200_td hs ho F n_q n_u h0 hN hcoll hl ht
  obtain rfl := Except.ok.inj (hC.symm.trans hP)
  obtain rfl := Except.ok.inj (hC'.symm.trans hP')
  obtain ⟨d, ds, rfl⟩ : ∃ d ds, ext = d :: ds := by
    cases ext with
    | nil => simp at hl
    | cons d ds => exact ⟨d, ds, rfl⟩
  rw [show (p :: ps).sum + (p :: ps).length = p + 1 + (ps.sum + ps.length) by simp; ring] at hb
  exact best_rest r1 (fun v w h h' e e' => r2 v w h h' e (e' rfl)) W scheme _ _ n_u _ hb

end

/-! ## Examples -/

private theorem times : ∀ s < [2, 3].length, ([0, 1, 3] : List ℝ).getD s 0 ≠ ([0, 1, 3] : List ℝ).getD (s + 1) 0 := by
  intro s hs
  have hs : s < 2 := hs
  interval_cases s <;> norm_num

/-- A cart in two segments of two and of three points: both problems of both kinds exist, and their parts fit together. -/
example : (∃ C C', phConstraints Together.cart .bu "LGR" 2 1 1 [2, 3] [0, 1, 3] = .ok C ∧ phConstraints Together.cart .bu "LGR" 2 1 1 [3] [1, 3] = .ok C' ∧
      (∀ v q q', C v q → C' (rest 2 v) q') ∧ ∀ v w q q' q'', C v q → C' w q' → v.x 3 = w.x 0 → C (follow 2 v w) q'') ∧
    ∃ C C', phConstraints Together.cart .td "LGR" 2 1 1 [2, 3] [0, 1, 3] = .ok C ∧ phConstraints Together.cart .td "LGR" 2 1 1 [3] [1, 3] = .ok C' ∧
      (∀ v, (∃ q, C v q) → ∃ q, C' (rest 2 v) q) ∧ ∀ v w, (∃ q, C v q) → (∃ q, C' w q) → v.x 3 = w.x 0 → v.xd 3 = w.xd 0 → ∃ q, C (follow 2 v w) q :=
  ⟨C200_bu (by decide) (by norm_num) Together.cart 1 1 (by simp) (by decide) (Or.inl (by decide)) (coll := fun p => LGR p) (fun p _ => by simp [collPoints]) (by simp) times,
    C200_td (by decide) (by norm_num) Together.cart 1 1 (by simp) (by decide) (coll := fun p => LGR p) (fun p _ => by simp [collPoints]) (by simp) times⟩

/-- The cart at rest without force. -/
def still : Vars := ⟨0, 0, 0, 0⟩

private theorem still_lev (k i j : ℕ) : still.lev 2 1 k i j = 0 := by simp [still, Vars.lev]

private theorem still_cheap {scheme : String} (W : Ph.Weights) (hW : ∀ p i, 0 ≤ W p scheme 2 "u" i) (w : Vars) {c d : ℝ} (h1 : Ph.uSqCost W scheme [2, 3] (Ph.hArr [0, 1, 3]) (ctrl 1 still) = .ok c)
    (h2 : Ph.uSqCost W scheme [2, 3] (Ph.hArr [0, 1, 3]) (ctrl 1 w) = .ok d) : c ≤ d := by
  have r : ∀ i < [2, 3].sum, ((Ph.segRows 1 [2, 3]).map (·.1)).flatten[i]? = some (if i < 2 then i + 1 else i + 2) := by decide
  simp only [Ph.C35_u_sq_cost W scheme [2, 3] _ _ _ r] at h1 h2
  rw [← Except.ok.inj h1, ← Except.ok.inj h2]
  have pos : ∀ (p : ℕ) (f : ℕ → Fin 1 → ℝ), 0 ≤ ∑ j, ∑ i ∈ range p, W p scheme 2 "u" i * f i j ^ 2 := fun p f =>
    sum_nonneg fun j _ => sum_nonneg fun i _ => mul_nonneg (hW p i) (sq_nonneg _)
  have e : Ph.hArr [0, 1, 3] = [1, 2] := by norm_num [Ph.hArr]
  rw [e]
  simp only [Ph.segmentSquares]
  have z : ∀ i (j : Fin 1), ctrl 1 still i j = 0 := fun i j => rfl
  simp only [z]
  have a := pos 2 fun i => ctrl 1 w (if 0 + i < 2 then 0 + i + 1 else 0 + i + 2)
  have b := pos 3 fun i => ctrl 1 w (if 0 + 2 + i < 2 then 0 + 2 + i + 1 else 0 + 2 + i + 2)
  have o : ∀ (n k : ℕ), ∑ _j : Fin 1, ∑ i ∈ range n, W k scheme 2 "u" i * (0 : ℝ) ^ 2 = 0 := fun n k => by simp
  rw [o, o]
  linarith

/-- It is a best motion of the two segments, so staying there is best in the second. -/
example (W : Ph.Weights) (hW : ∀ p i, 0 ≤ W p "LGR" 2 "u" i) : ∃ C C', phConstraints Together.cart .bu "LGR" 2 1 1 [2, 3] [0, 1, 3] = .ok C ∧ phConstraints Together.cart .bu "LGR" 2 1 1 [3] [1, 3] = .ok C' ∧
    Best false false (fun v => ∃ q, C v q) (fun v => Ph.uSqCost W "LGR" [2, 3] (Ph.hArr [0, 1, 3]) (ctrl 1 v)) 7 still ∧
    Best false false (fun v => ∃ q, C' v q) (fun v => Ph.uSqCost W "LGR" [3] (Ph.hArr [1, 3]) (ctrl 1 v)) 4 still := by
  have hc : ∀ q ∈ [2, 3], collPoints q "LGR" 2 = .ok (LGR q) := fun p _ => by simp [collPoints]
  obtain ⟨C, hC, hv⟩ := C99_feasible (scheme := "LGR") (by decide) (order := 2) (by norm_num) Together.cart 1 1 (points := [2, 3]) (by simp) (by decide) (Or.inl (by decide))
    (coll := fun p => LGR p) hc (ext := [0, 1, 3]) (by simp) times
  obtain ⟨P, C', hP, hC', -, -⟩ := C200_bu (scheme := "LGR") (by decide) (order := 2) (by norm_num) Together.cart 1 1 (p := 2) (ps := [3]) (by simp) (by decide) (Or.inl (by decide))
    (coll := fun p => LGR p) hc (t := 0) (ext := [1, 3]) (by simp) times
  have hb : Best false false (fun v => ∃ q, C v q) (fun v => Ph.uSqCost W "LGR" [2, 3] (Ph.hArr [0, 1, 3]) (ctrl 1 v)) 7 still := by
    refine ⟨⟨0, (hv still 0).2 ⟨⟨fun _ _ => 0, fun s hs => ⟨fun j hj => ⟨by rw [degree_zero]; exact bot_lt_iff_ne_bot.2 (by simp), fun k hk => ?_, fun k hk m hm => ?_⟩, fun j hj => ?_, fun e j hj => ?_⟩⟩, fun s hs => ?_, fun s hs m hm => ?_, fun s hs c hc => ?_⟩⟩, ?_⟩
    · simp [still_lev]
    · simp [still_lev]
    · simp [still_lev]
    · simp [still_lev]
    · intro c hc
      simp [still]
    · simp [still, Together.cart, zero]
    · exact ⟨0, by simp [still]⟩
    · exact fun w c d _ _ _ _ _ h1 h2 => still_cheap W hW w h1 h2
  exact ⟨C, C', hC, hC', hb, C200_optimal_bu (scheme := "LGR") (by decide) (order := 2) (by norm_num) (p := 2) (ps := [3]) (by simp) (by decide) (Or.inl (by decide))
    (coll := fun p => LGR p) hc (t := 0) (ext := [1, 3]) (by simp) times hC hC' W hb⟩

/-- The same top-down. -/
example (W : Ph.Weights) (hW : ∀ p i, 0 ≤ W p "LGR" 2 "u" i) : ∃ C C', phConstraints Together.cart .td "LGR" 2 1 1 [2, 3] [0, 1, 3] = .ok C ∧ phConstraints Together.cart .td "LGR" 2 1 1 [3] [1, 3] = .ok C' ∧
    Best false false (fun v => ∃ q, C v q) (fun v => Ph.uSqCost W "LGR" [2, 3] (Ph.hArr [0, 1, 3]) (ctrl 1 v)) 7 still ∧
    Best true false (fun v => ∃ q, C' v q) (fun v => Ph.uSqCost W "LGR" [3] (Ph.hArr [1, 3]) (ctrl 1 v)) 4 still := by
  have hc : ∀ q ∈ [2, 3], collPoints q "LGR" 2 = .ok (LGR q) := fun p _ => by simp [collPoints]
  obtain ⟨C, hC, hv⟩ := C100_feasible (scheme := "LGR") (by decide) (order := 2) (by norm_num) Together.cart 1 1 (points := [2, 3]) (by simp) (by decide)
    (coll := fun p => LGR p) hc (ext := [0, 1, 3]) (by simp) times
  obtain ⟨P, C', hP, hC', -, -⟩ := C200_td (scheme := "LGR") (by decide) (order := 2) (by norm_num) Together.cart 1 1 (p := 2) (ps := [3]) (by simp) (by decide)
    (coll := fun p => LGR p) hc (t := 0) (ext := [1, 3]) (by simp) times
  have hb : Best false false (fun v => ∃ q, C v q) (fun v => Ph.uSqCost W "LGR" [2, 3] (Ph.hArr [0, 1, 3]) (ctrl 1 v)) 7 still := by
    refine ⟨(hv still).2 ⟨⟨fun _ _ => 0, fun s hs => ⟨fun j hj => ⟨by rw [degree_zero]; exact bot_lt_iff_ne_bot.2 (by simp), fun k hk => ?_, fun k hk m hm => ?_⟩, fun j hj => ?_⟩⟩, fun s hs => ?_, fun s hs m hm => ?_, fun s hs c hc => ?_⟩, ?_⟩
    · simp [still_lev]
    · simp [still_lev]
    · simp [still_lev]
    · intro c hc
      simp [still]
    · simp [still, Together.cart, zero]
    · exact ⟨0, by simp [still]⟩
    · exact fun w c d _ _ _ _ _ h1 h2 => still_cheap W hW w h1 h2
  exact ⟨C, C', hC, hC', hb, C200_optimal_td (scheme := "LGR") (by decide) (order := 2) (by norm_num) (p := 2) (ps := [3]) (by simp) (by decide)
    (coll := fun p => LGR p) hc (t := 0) (ext := [1, 3]) (by simp) times hC hC' W hb⟩

/-! ## C201: node based problems -/

section
variable {F : Dyn} {v w : Vars} {order n_q n_u p : ℕ} {ps : List ℕ} {coll coll2 : ℕ → List ℝ} {n : ℕ → ℕ} {t : ℝ} {ext : List ℝ} {scheme : String}

/-- What the second segment and those after it ask, alone they ask as well. -/
private theorem node_whole {s k : ℕ} {P : ℕ → ℝ[X]} (h : NodeSegPoly (rest p v) scheme order n_q ps coll (fun s => ext.getD s 0) s k P) :
    NodeSegPoly v scheme order n_q (p :: ps) coll (fun s => (t :: ext).getD s 0) (s + 1) k P := by
  intro c hc
  obtain ⟨a, b, d, e, f⟩ := h c hc
  simp only [knot, col, List.getD_cons_succ]
  refine ⟨a, b, d, fun h => e ?_, fun h => f ?_⟩
  · rcases h with h | h | h
    · exact Or.inl h
    · omega
    · exact Or.inr (Or.inr h)
  · exact h.imp_right (Or.imp_left fun h => ⟨h.1, by simpa using h.2⟩)

private theorem node_rest (hk : scheme ∈ gaussLike ++ radauInv ++ gauss2 ++ ["D2"]) {s k : ℕ} {P : ℕ → ℝ[X]}
    (h : NodeSegPoly v scheme order n_q (p :: ps) coll (fun s => (t :: ext).getD s 0) (s + 1) k P) :
    NodeSegPoly (rest p v) scheme order n_q ps coll (fun s => ext.getD s 0) s k P := by
  intro c hc
  obtain ⟨a, b, d, e, f⟩ := h c hc
  simp only [knot, col, List.getD_cons_succ] at a b d e f
  refine ⟨a, b, d, fun h => ?_, fun h => f (h.imp_right (Or.imp_left fun h => ⟨h.1, by simpa using h.2⟩))⟩
  rcases List.mem_append.1 hk with hk | hk
  · exact e (Or.inl hk)
  · obtain rfl := List.mem_singleton.1 hk
    rcases h with h | h | h
    · exact absurd h (by decide)
    · exact absurd h.1 (by decide)
    · exact absurd h.1 (by decide)

private theorem node_first {k : ℕ} {P : ℕ → ℝ[X]} (hx : ∀ i ≤ p + 1, w.x i = v.x i ∧ w.xd i = v.xd i)
    (h : NodeSegPoly v scheme order n_q (p :: ps) coll (fun s => (t :: ext).getD s 0) 0 k P) :
    NodeSegPoly w scheme order n_q (p :: ps) coll (fun s => (t :: ext).getD s 0) 0 k P := by
  have k0 : knotRow (p :: ps) 0 = 0 := by simp [knotRow]
  have k1 : knotRow (p :: ps) (0 + 1) = p + 1 := by simp [knotRow]
  have z : ∀ m, colRow (p :: ps) 0 m = 1 + m := fun m => by simp [colRow, knotRow]
  intro c hc
  obtain ⟨a, b, d, e, f⟩ := h c hc
  rw [k0, k1] at *
  refine ⟨a, fun m hm => ?_, fun h => ?_, fun h => ?_, fun h => ?_⟩
  · have hm' : m < p := by simpa using hm
    have := b m hm
    rw [z] at this ⊢
    rw [(hx (1 + m) (by omega)).1, (hx (1 + m) (by omega)).2]
    exact this
  · rw [(hx 0 (by omega)).1, (hx (p + 1) le_rfl).1]
    exact d h
  · rw [(hx 0 (by omega)).2]
    exact e h
  · rw [(hx (p + 1) le_rfl).2]
    exact f h

/-- C201: in a node based problem any motion of the segments after the first one that starts with the state and the derivatives at the knot may take the
place of the rest. -/
theorem C201_replace (hs : scheme ∈ implemented) (ho : 1 ≤ order) (hord : order ≤ 2 ∨ scheme ∉ gaussLike ++ gaussInv) (F : Dyn) (n_q n_u : ℕ) (h0 : ps ≠ [])
    (hN : ∀ q ∈ p :: ps, minPoints scheme ≤ q) (hcoll : ∀ q ∈ p :: ps, collPoints q scheme order = .ok (coll q)) (hcoll2 : ∀ q ∈ p :: ps, collPoints q scheme = .ok (coll2 q))
    (hn : ∀ q ∈ p :: ps, nColToNNodes scheme q = .ok (n q)) (hl : (t :: ext).length = (p :: ps).length + 1)
    (ht : ∀ s < (p :: ps).length, (t :: ext).getD s 0 ≠ (t :: ext).getD (s + 1) 0) :
    ∃ C C', phConstraints F .node scheme order n_q n_u (p :: ps) (t :: ext) = .ok C ∧ phConstraints F .node scheme order n_q n_u ps ext = .ok C' ∧
      ∀ v w q q' q'', C v q → C' w q' → v.x (p + 1) = w.x 0 → v.xd (p + 1) = w.xd 0 → C (follow p v w) q'' := by
  obtain ⟨C, hC, hv⟩ := C101_feasible hs ho hord F n_q n_u (by simp) hN hcoll hcoll2 hn hl ht
  obtain ⟨C', hC', hv'⟩ := C101_feasible hs ho hord F n_q n_u h0 (fun q hq => hN q (by simp [hq])) (fun q hq => hcoll q (by simp [hq])) (fun q hq => hcoll2 q (by simp [hq]))
    (fun q hq => hn q (by simp [hq])) (ext := ext) (by simpa using hl) (fun s h => by simpa using ht (s + 1) (by simpa using h))
  refine ⟨C, C', hC, hC', fun v w q q' q'' h h' hx hxd => ?_⟩
  obtain ⟨⟨Q, hQ⟩, ⟨hK1, hK2, hK3⟩, hF, hU⟩ := (hv v q).1 h
  obtain ⟨⟨R, hR⟩, ⟨hK1', hK2', hK3'⟩, hF', hU'⟩ := (hv' w q').1 h'
  have ha := agree_follow hx
  have hr : ∀ i ≤ p + 1, (follow p v w).x i = v.x i ∧ (follow p v w).xd i = v.xd i := fun i hi => by
    rcases Nat.lt_or_eq_of_le hi with h | rfl
    · exact ⟨(ha.1 i h).1.symm, (ha.1 i h).2.1.symm⟩
    · exact ⟨ha.2.2.symm, by simp only [follow, lt_irrefl, if_false, Nat.sub_self, hxd]⟩
  refine (hv _ q'').2 ⟨⟨fun s => match s with | 0 => Q 0 | s + 1 => R s, fun s hs => ?_⟩, ⟨fun e s hs => ?_, fun e => first_shift ha (hK2 e), fun e => ?_⟩,
    coll_rest.2 ⟨first_coll ha (coll_rest.1 hF).1, by rwa [rest_follow]⟩, ctrl_rest.2 ⟨first_ctrl h0 ha (ctrl_rest.1 hU).1, by rwa [rest_follow]⟩⟩
  · cases s with
    | zero => exact node_first hr (hQ 0 (by simp))
    | succ s => exact node_whole (by rw [rest_follow]; exact hR s (by simpa using hs))
  · cases s with
    | zero => exact first_shift ha (hK1 e 0 (by simp))
    | succ s => exact shift_rest.2 (by rw [rest_follow]; exact hK1' e s (by simpa using hs))
  · exact shift_rest.2 (by rw [rest_follow]; exact hK3' e)

/-- C201 without the Radau schemes that start with a point, the Lobatto schemes and the inverted Gauss schemes: without its first segment a motion is a motion of the problem of the other segments. -/
theorem C201_tail_partial (hs : scheme ∈ implemented) (hk : scheme ∈ gaussLike ++ radauInv ++ gauss2 ++ ["D2"]) (ho : 1 ≤ order) (hord : order ≤ 2 ∨ scheme ∉ gaussLike ++ gaussInv) (F : Dyn)
    (n_q n_u : ℕ) (h0 : ps ≠ []) (hN : ∀ q ∈ p :: ps, minPoints scheme ≤ q) (hcoll : ∀ q ∈ p :: ps, collPoints q scheme order = .ok (coll q))
    (hcoll2 : ∀ q ∈ p :: ps, collPoints q scheme = .ok (coll2 q)) (hn : ∀ q ∈ p :: ps, nColToNNodes scheme q = .ok (n q)) (hl : (t :: ext).length = (p :: ps).length + 1)
    (ht : ∀ s < (p :: ps).length, (t :: ext).getD s 0 ≠ (t :: ext).getD (s + 1) 0) :
    ∃ C C', phConstraints F .node scheme order n_q n_u (p :: ps) (t :: ext) = .ok C ∧ phConstraints F .node scheme order n_q n_u ps ext = .ok C' ∧
      ∀ v q q', C v q → C' (rest p v) q' := by
  obtain ⟨C, hC, hv⟩ := C101_feasible hs ho hord F n_q n_u (by simp) hN hcoll hcoll2 hn hl ht
  obtain ⟨C', hC', hv'⟩ := C101_feasible hs ho hord F n_q n_u h0 (fun q hq => hN q (by simp [hq])) (fun q hq => hcoll q (by simp [hq])) (fun q hq => hcoll2 q (by simp [hq]))
    (fun q hq => hn q (by simp [hq])) (ext := ext) (by simpa using hl) (fun s h => by simpa using ht (s + 1) (by simpa using h))
  have hi : scheme ∉ gaussInv := by
    have : ∀ s ∈ gaussLike ++ radauInv ++ gauss2 ++ ["D2"], s ∉ gaussInv := by decide
    exact this _ hk
  refine ⟨C, C', hC, hC', fun v q q' h => ?_⟩
  obtain ⟨⟨Q, hQ⟩, ⟨hK1, hK2, hK3⟩, hF, hU⟩ := (hv v q).1 h
  exact (hv' _ q').2 ⟨⟨fun s => Q (s + 1), fun s hs => node_rest hk (hQ (s + 1) (by simpa using hs))⟩,
    ⟨fun e s hs => shift_rest.1 (hK1 e (s + 1) (by simpa using hs)), fun e => absurd e hi, fun e => shift_rest.1 (hK3 e)⟩, (coll_rest.1 hF).2, (ctrl_rest.1 hU).2⟩

/-- C201 for the same schemes: the rest of a best motion is best among the motions from its state with its derivatives. -/
theorem C201_optimal_partial (hs : scheme ∈ implemented) (hk : scheme ∈ gaussLike ++ radauInv ++ gauss2 ++ ["D2"]) (ho : 1 ≤ order) (hord : order ≤ 2 ∨ scheme ∉ gaussLike ++ gaussInv)
    (h0 : ps ≠ []) (hN : ∀ q ∈ p :: ps, minPoints scheme ≤ q) (hcoll : ∀ q ∈ p :: ps, collPoints q scheme order = .ok (coll q))
    (hcoll2 : ∀ q ∈ p :: ps, collPoints q scheme = .ok (coll2 q)) (hn : ∀ q ∈ p :: ps, nColToNNodes scheme q = .ok (n q)) (hl : (t :: ext).length = (p :: ps).length + 1)
    (ht : ∀ s < (p :: ps).length, (t :: ext).getD s 0 ≠ (t :: ext).getD (s + 1) 0) {a z : Bool} {C C' : Vars → (ℕ → ℕ → ℕ → ℝ) → Prop}
    (hC : phConstraints F .node scheme order n_q n_u (p :: ps) (t :: ext) = .ok C) (hC' : phConstraints F .node scheme order n_q n_u ps ext = .ok C') (W : Ph.Weights)
    (hb : Best a z (fun v => ∃ q, C v q) (fun v => Ph.uSqCost W scheme (p :: ps) (Ph.hArr (t :: ext)) (ctrl n_u v)) ((p :: ps).sum + (p :: ps).length) v) :
    Best true z (fun v => ∃ q, C' v q) (fun v => Ph.uSqCost W scheme ps (Ph.hArr ext) (ctrl n_u v)) (ps.sum + ps.length) (rest p v) := by
  obtain ⟨P, P', hP, hP', r1⟩ := C201_tail_partial hs hk ho hord F n_q n_u h0 hN hcoll hcoll2 hn hl ht
  obtain ⟨_, _, hR, hR', r2⟩ := C201_replace hs ho hord F n_q n_u h0 hN hcoll hcoll2 hn hl ht
  obtain rfl := Except.ok.inj (hC.symm.trans hP)
  obtain rfl := Except.ok.inj (hC'.symm.trans hP')
  obtain rfl := Except.ok.inj (hC.symm.trans hR)
  obtain rfl := Except.ok.inj (hC'.symm.trans hR')
  obtain ⟨d, ds, rfl⟩ : ∃ d ds, ext = d :: ds := by
    cases ext with
    | nil => simp at hl
    | cons d ds => exact ⟨d, ds, rfl⟩
  rw [show (p :: ps).sum + (p :: ps).length = p + 1 + (ps.sum + ps.length) by simp; ring] at hb
  exact best_rest (fun v ⟨q, h⟩ => ⟨q, r1 v q q h⟩) (fun v w ⟨q, h⟩ ⟨q', h'⟩ e e' => ⟨q, r2 v w q q' q h h' e (e' rfl)⟩) W scheme _ _ n_u _ hb

end

private theorem lgr_one (order : ℕ) : collPoints 1 "LGR" order = .ok [-1] := by
  have h : LGR 1 = [-1] := by
    have hr : realRoots (legendre 1 + legendre 0) = [(-1 : ℝ)] := by
      rw [realRoots_eq (m := 1) (s := fun _ => (-1 : ℝ)) (by simp [legendre]; compute_degree!) (by
        intro h
        have := congrArg (Polynomial.eval 1) h
        norm_num [legendre] at this) (fun i j _ _ => by omega) (fun i _ => by simp [legendre])]
      rfl
    simpa [LGR] using hr
  simp [collPoints, h]

/-- C201 is false for Radau points: the derivative at a knot is the one before it, and the problem of the rest asks for the one after it. -/
theorem C201_tail_refuted : ∃ C C' v, phConstraints noDynamics .node "LGR" 1 1 0 [1, 1] [0, 1, 2] = .ok C ∧ phConstraints noDynamics .node "LGR" 1 1 0 [1] [1, 2] = .ok C' ∧
    (∀ q, C v q) ∧ ∀ q, ¬ C' (rest 1 v) q := by
  have ht : ∀ s < [1, 1].length, ([0, 1, 2] : List ℝ).getD s 0 ≠ ([0, 1, 2] : List ℝ).getD (s + 1) 0 := by
    intro s hs
    have hs : s < 2 := hs
    interval_cases s <;> simp
  obtain ⟨C, v, hC, hv, hj⟩ := C101_jump
  obtain ⟨P, hP, h1⟩ := C101_feasible (scheme := "LGR") (by decide) (order := 1) le_rfl (Or.inl (by norm_num)) noDynamics 1 0 (points := [1, 1])
    (by simp) (by simp [minPoints]) (coll := fun _ => [-1]) (coll2 := fun _ => [-1]) (n := fun _ => 2)
    (by simp [lgr_one]) (by simp [lgr_one]) (by simp [nColToNNodes]; decide) (ext := [0, 1, 2]) (by simp) ht
  obtain ⟨C', hC', h2⟩ := C101_feasible (scheme := "LGR") (by decide) (order := 1) le_rfl (Or.inl (by norm_num)) noDynamics 1 0 (points := [1])
    (by simp) (by simp [minPoints]) (coll := fun _ => [-1]) (coll2 := fun _ => [-1]) (n := fun _ => 2)
    (by simp [lgr_one]) (by simp [lgr_one]) (by simp [nColToNNodes]; decide) (ext := [1, 2]) (by simp) (by simp)
  obtain rfl := Except.ok.inj (hC.symm.trans hP)
  refine ⟨C, C', v, hC, hC', hv, fun q h => ?_⟩
  obtain ⟨⟨Q, hQ⟩, -⟩ := (h1 v (fun _ _ _ => 0)).1 (hv _)
  obtain ⟨⟨R, hR⟩, -⟩ := (h2 _ q).1 h
  have a := hQ 0 (by simp)
  have b := hR 0 (by simp)
  refine hj (fun s => if s = 0 then Q 0 else R 0) (fun s hs => ?_) ?_
  · interval_cases s
    · exact a
    · exact node_whole (p := 1) (ps := [1]) (t := 0) (ext := [1, 2]) b
  · have e := (a 0 (by simp)).2.2.2.2 (Or.inl (by decide))
    have f := (b 0 (by simp)).2.2.2.1 (Or.inr (Or.inl ⟨by decide, rfl⟩))
    have k1 : knotRow [1, 1] (0 + 1) = 2 := by simp [knotRow]
    have k0 : knotRow [1] 0 = 0 := by simp [knotRow]
    rw [k1] at e
    rw [k0] at f
    simp only [List.getD_cons_succ, List.getD_cons_zero, rest] at e f
    simp only [if_true, one_ne_zero, if_false]
    rw [← e, ← f]

/-- A point that rests until `t₁` and moves with speed one after that, in two segments of `p` and `p'` points `τ`. The row of the knot has the derivative before it. -/
noncomputable def corner (p p' : ℕ) (τ : ℕ → ℝ) (t₁ t₂ : ℝ) : Vars :=
  ⟨fun i _ => if i < p + 2 then 0 else if i = p + 2 + p' then t₂ - t₁ else tauToT (τ (i - (p + 2))) t₁ t₂ - t₁, fun i _ => if i < p + 2 then 0 else 1, fun _ _ => 0, fun _ _ => 0⟩

/-- C201 is false for all Radau schemes that start with a point and all Lobatto schemes, with any numbers of points and any times. -/
theorem C201_tail_refuted_all {scheme : String} (hk : scheme ∈ lobatoLike ++ radauLike) {p p' : ℕ} (hN : ∀ q ∈ [p, p'], minPoints scheme ≤ q) {coll coll2 : ℕ → List ℝ} {n : ℕ → ℕ}
    (hcoll : ∀ q ∈ [p, p'], collPoints q scheme 1 = .ok (coll q)) (hcoll2 : ∀ q ∈ [p, p'], collPoints q scheme = .ok (coll2 q)) (hn : ∀ q ∈ [p, p'], nColToNNodes scheme q = .ok (n q))
    {t₀ t₁ t₂ : ℝ} (h01 : t₀ ≠ t₁) (h12 : t₁ ≠ t₂) :
    ∃ C C' v, phConstraints noDynamics .node scheme 1 1 0 [p, p'] [t₀, t₁, t₂] = .ok C ∧ phConstraints noDynamics .node scheme 1 1 0 [p'] [t₁, t₂] = .ok C' ∧
      (∀ q, C v q) ∧ ∀ q, ¬ C' (rest p v) q := by
  have ht : ∀ s < [p, p'].length, ([t₀, t₁, t₂] : List ℝ).getD s 0 ≠ ([t₀, t₁, t₂] : List ℝ).getD (s + 1) 0 := by
    intro s hs
    have hs : s < 2 := hs
    interval_cases s
    · exact h01
    · exact h12
  have hs : scheme ∈ implemented := by
    have : ∀ s ∈ lobatoLike ++ radauLike, s ∈ implemented := by decide
    exact this _ hk
  have ho : scheme ∉ gaussLike ++ radauInv ++ gauss2 ∧ scheme ∉ gaussInv ∧ scheme ∉ gauss2 ∧ scheme ∉ gaussLike := by
    have : ∀ s ∈ lobatoLike ++ radauLike, s ∉ gaussLike ++ radauInv ++ gauss2 ∧ s ∉ gaussInv ∧ s ∉ gauss2 ∧ s ∉ gaussLike := by decide
    exact this _ hk
  obtain ⟨o1, o2, o3, o4⟩ := ho
  obtain ⟨k, nodes, e1, -, e3, -, e5, e6, e7, e8, e9⟩ := nodes_shape hs (hN p' (by simp)) (hcoll2 p' (by simp))
  obtain rfl : k = n p' := Except.ok.inj (e1.symm.trans (hn p' (by simp)))
  have z := e8 hk
  have two : 2 ≤ n p' := by
    rw [← e3, e7, if_neg o1, List.nil_append, List.length_append, e5]
    rcases List.mem_append.1 hk with h | h
    · have : p' ≠ 1 := by
        rintro rfl
        have := e9 (by simp [h])
        rw [Nat.sub_self, z] at this
        norm_num at this
      omega
    · rw [if_pos (by simp [h])]
      simpa using e6
  obtain ⟨C, hC, hv⟩ := C101_feasible hs (order := 1) le_rfl (Or.inl (by norm_num)) noDynamics 1 0 (points := [p, p']) (by simp) hN hcoll hcoll2 hn (ext := [t₀, t₁, t₂]) (by simp) ht
  obtain ⟨C', hC', hv'⟩ := C101_feasible hs (order := 1) le_rfl (Or.inl (by norm_num)) noDynamics 1 0 (points := [p']) (by simp) (fun q hq => hN q (by simp_all)) (fun q hq => hcoll q (by simp_all))
    (fun q hq => hcoll2 q (by simp_all)) (fun q hq => hn q (by simp_all)) (ext := [t₁, t₂]) (by simp) (by simpa using h12)
  have k0 : knotRow [p, p'] 0 = 0 := by simp [knotRow]
  have k1 : knotRow [p, p'] 1 = p + 1 := by simp [knotRow]
  have k2 : knotRow [p, p'] 2 = p + 2 + p' := by simp [knotRow, sum_range_succ]; ring
  have c0 : ∀ m, colRow [p, p'] 0 m = 1 + m := fun m => by simp [colRow, knotRow]
  have c1 : ∀ m, colRow [p, p'] 1 m = p + 2 + m := fun m => by simp [colRow, knotRow]
  refine ⟨C, C', corner p p' (arr (coll2 p')) t₁ t₂, hC, hC', fun q => (hv _ q).2 ⟨⟨fun s _ => if s = 0 then 0 else X - Polynomial.C t₁, fun s hs => ?_⟩,
    ⟨fun e => absurd e o3, fun e => absurd e o2, fun e => absurd e o4⟩, fun s _ m _ => by simp [noDynamics, zero], fun s _ c hc => by omega⟩, fun q h => ?_⟩
  · have hs : s < 2 := hs
    intro c _
    interval_cases s
    · simp only [k0, k1, c0, zero_add, List.getD_cons_zero, List.getD_cons_succ, if_true]
      refine ⟨by rw [degree_zero]; exact WithBot.bot_lt_coe _, fun m hm => ?_, fun _ => ?_, fun _ => ?_, fun _ => ?_⟩
      · have : 1 + m < p + 2 := by omega
        simp only [corner, this, if_true]
        simp
      · simp [corner]
      · simp [corner]
      · simp [corner]
    · simp only [k1, k2, c1, Nat.reduceAdd, List.getD_cons_zero, List.getD_cons_succ, one_ne_zero, if_false]
      refine ⟨?_, fun m hm => ?_, fun _ => ?_, fun h => ?_, fun _ => ?_⟩
      · rw [degree_X_sub_C]
        exact_mod_cast (by omega : 1 < n p')
      · have g1 : ¬ p + 2 + m < p + 2 := by omega
        have g2 : ¬ p + 2 + m = p + 2 + p' := by omega
        simp only [corner, g1, g2, if_false, Nat.add_sub_cancel_left]
        simp
      · have g1 : ¬ p + 2 + p' < p + 2 := by omega
        simp only [corner, g1, if_false, if_true]
        simp
      · rcases h with h | h | h
        · exact absurd h o1
        · exact absurd h.2 (by simp)
        · exact absurd h.1 o2
      · have g1 : ¬ p + 2 + p' < p + 2 := by omega
        simp only [corner, g1, if_false]
        simp
  · obtain ⟨⟨R, hR⟩, -⟩ := (hv' _ q).1 h
    obtain ⟨-, b, -, e, -⟩ := hR 0 (by simp) 0 (by simp)
    have b := (b 0 (by simpa using Nat.lt_of_succ_le e6)).2
    have e := e (Or.inr (Or.inl ⟨hk, rfl⟩))
    have j0 : knotRow [p'] 0 = 0 := by simp [knotRow]
    have j1 : colRow [p'] 0 0 = 1 := by simp [colRow, knotRow]
    simp only [j0, j1, List.getD_cons_zero, List.getD_cons_succ, z, tauToT_start] at b e
    rw [← e] at b
    have g1 : ¬ p + 1 + 1 < p + 2 := by omega
    simp only [rest, corner, g1, if_false] at b
    simp at b

/-- C201 for the inverted Gauss schemes and order 1: without its first segment a motion is a motion of the problem of the other segments. -/
theorem C201_tail_inv_partial {scheme : String} (hk : scheme ∈ gaussInv) (F : Dyn) (n_q n_u : ℕ) {p : ℕ} {ps : List ℕ} (h0 : ps ≠ []) (hN : ∀ q ∈ p :: ps, minPoints scheme ≤ q) {coll coll2 : ℕ → List ℝ} {n : ℕ → ℕ}
    (hcoll : ∀ q ∈ p :: ps, collPoints q scheme 1 = .ok (coll q)) (hcoll2 : ∀ q ∈ p :: ps, collPoints q scheme = .ok (coll2 q)) (hn : ∀ q ∈ p :: ps, nColToNNodes scheme q = .ok (n q))
    {t : ℝ} {ext : List ℝ} (hl : (t :: ext).length = (p :: ps).length + 1) (ht : ∀ s < (p :: ps).length, (t :: ext).getD s 0 ≠ (t :: ext).getD (s + 1) 0) :
    ∃ C C', phConstraints F .node scheme 1 n_q n_u (p :: ps) (t :: ext) = .ok C ∧ phConstraints F .node scheme 1 n_q n_u ps ext = .ok C' ∧ ∀ v q q', C v q → C' (rest p v) q' := by
  have hs : scheme ∈ implemented ∧ scheme ∉ gaussLike ∧ scheme ∉ gauss2 := by
    have : ∀ s ∈ gaussInv, s ∈ implemented ∧ s ∉ gaussLike ∧ s ∉ gauss2 := by decide
    exact this _ hk
  obtain ⟨hs, o1, o2⟩ := hs
  obtain ⟨C, hC, hv⟩ := C101_feasible hs le_rfl (Or.inl (by norm_num)) F n_q n_u (by simp) hN hcoll hcoll2 hn hl ht
  obtain ⟨C', hC', hv'⟩ := C101_feasible hs le_rfl (Or.inl (by norm_num)) F n_q n_u h0 (fun q hq => hN q (by simp [hq])) (fun q hq => hcoll q (by simp [hq])) (fun q hq => hcoll2 q (by simp [hq]))
    (fun q hq => hn q (by simp [hq])) (ext := ext) (by simpa using hl) (fun s h => by simpa using ht (s + 1) (by simpa using h))
  refine ⟨C, C', hC, hC', fun v q q' h => ?_⟩
  obtain ⟨⟨Q, hQ⟩, -, hF, hU⟩ := (hv v q).1 h
  refine (hv' _ q').2 ⟨⟨fun s => Q (s + 1), fun s hs c hc => ?_⟩, ⟨fun e => absurd e o2, fun _ c hc => by simp at hc, fun e => absurd e o1⟩, (coll_rest.1 hF).2, (ctrl_rest.1 hU).2⟩
  obtain ⟨a, b, d, e, f⟩ := hQ (s + 1) (by simpa using hs) c hc
  simp only [knot, col, List.getD_cons_succ] at a b d e f
  exact ⟨a, b, d, fun _ => e (Or.inr (Or.inr ⟨hk, by simp⟩)), fun h => f (h.imp_right (Or.imp_left fun h => ⟨h.1, by simpa using h.2⟩))⟩

/-- A position that rests and a velocity that is one, which no equation links; only the first row of the derivatives has the velocity. -/
def unlinked : Vars := ⟨fun _ c => if c = 1 then 1 else 0, fun i c => if i = 0 ∧ c = 0 then 1 else 0, fun _ _ => 0, fun _ _ => 0⟩

/-- C201 is false for all inverted Gauss schemes and order 2, with any numbers of points and any times: only at its start a problem asks that the derivatives
repeat the velocities. -/
theorem C201_tail_refuted_inv {scheme : String} (hk : scheme ∈ gaussInv) {p : ℕ} {ps : List ℕ} (h0 : ps ≠ []) (hN : ∀ q ∈ p :: ps, minPoints scheme ≤ q) {coll coll2 : ℕ → List ℝ} {n : ℕ → ℕ}
    (hcoll : ∀ q ∈ p :: ps, collPoints q scheme 2 = .ok (coll q)) (hcoll2 : ∀ q ∈ p :: ps, collPoints q scheme = .ok (coll2 q)) (hn : ∀ q ∈ p :: ps, nColToNNodes scheme q = .ok (n q))
    {t : ℝ} {ext : List ℝ} (hl : (t :: ext).length = (p :: ps).length + 1) (ht : ∀ s < (p :: ps).length, (t :: ext).getD s 0 ≠ (t :: ext).getD (s + 1) 0) :
    ∃ C C' v, phConstraints noDynamics .node scheme 2 1 0 (p :: ps) (t :: ext) = .ok C ∧ phConstraints noDynamics .node scheme 2 1 0 ps ext = .ok C' ∧
      (∀ q, C v q) ∧ ∀ q, ¬ C' (rest p v) q := by
  have hs : scheme ∈ implemented ∧ scheme ∉ gaussLike ∧ scheme ∉ gauss2 ∧ scheme ∉ gaussLike ++ radauInv ++ gauss2 ∧ scheme ∉ lobatoLike ++ radauLike := by
    have : ∀ s ∈ gaussInv, s ∈ implemented ∧ s ∉ gaussLike ∧ s ∉ gauss2 ∧ s ∉ gaussLike ++ radauInv ++ gauss2 ∧ s ∉ lobatoLike ++ radauLike := by decide
    exact this _ hk
  obtain ⟨hs, o1, o2, o3, o4⟩ := hs
  obtain ⟨C, hC, hv⟩ := C101_feasible hs (by norm_num) (Or.inl le_rfl) noDynamics 1 0 (by simp) hN hcoll hcoll2 hn hl ht
  obtain ⟨C', hC', hv'⟩ := C101_feasible hs (by norm_num) (Or.inl le_rfl) noDynamics 1 0 h0 (fun q hq => hN q (by simp [hq])) (fun q hq => hcoll q (by simp [hq])) (fun q hq => hcoll2 q (by simp [hq]))
    (fun q hq => hn q (by simp [hq])) (ext := ext) (by simpa using hl) (fun s h => by simpa using ht (s + 1) (by simpa using h))
  have pos : ∀ q ∈ p :: ps, 0 < n q := fun q hq => by
    obtain ⟨k, nodes, e1, -, e3, -, e5, e6, e7, -⟩ := nodes_shape hs (hN q hq) (hcoll2 q hq)
    obtain rfl : k = n q := Except.ok.inj (e1.symm.trans (hn q hq))
    rw [← e3, e7, List.length_append, List.length_append, e5]
    omega
  refine ⟨C, C', unlinked, hC, hC', fun q => (hv _ q).2 ⟨⟨fun _ c => if c = 1 then 1 else 0, fun s hs c hc => ?_⟩, ⟨fun e => absurd e o2, fun _ c hc => ?_, fun e => absurd e o1⟩,
    fun s _ m _ => by simp [noDynamics, zero], fun s _ c hc => by omega⟩, fun q h => ?_⟩
  · have hm : (p :: ps).getD s 0 ∈ p :: ps := by
      rw [List.getD_eq_getElem?_getD, List.getElem?_eq_getElem hs]
      exact List.getElem_mem _
    have r1 : ∀ m, colRow (p :: ps) s m ≠ 0 := fun m => by unfold colRow; omega
    have r2 : knotRow (p :: ps) (s + 1) ≠ 0 := by rw [knot]; omega
    have dz : ∀ y : ℝ, (derivative (if c = 1 then (1 : ℝ[X]) else 0)).eval y = 0 := fun y => by split <;> simp
    have ez : ∀ y : ℝ, (if c = 1 then (1 : ℝ[X]) else 0).eval y = if c = 1 then 1 else 0 := fun y => by split <;> simp
    simp only [dz, ez]
    refine ⟨?_, fun m hm => ⟨rfl, by simp [unlinked, r1]⟩, fun _ => ⟨rfl, rfl⟩, fun h => ?_, fun _ => by simp [unlinked, r2]⟩
    · refine lt_of_le_of_lt (b := 0) ?_ (by exact_mod_cast pos _ hm)
      split
      · exact degree_one_le
      · simp
    · rcases h with h | h | h
      · exact absurd h o3
      · exact absurd h.1 o4
      · have : c ≠ 0 := by have := h.2; omega
        simp [unlinked, this]
  · have : c = 0 := by omega
    subst this
    simp [unlinked, knotRow]
  · obtain ⟨-, ⟨-, hK, -⟩, -⟩ := (hv' _ q).1 h
    have := hK hk 0 (by norm_num)
    simp [rest, unlinked, knotRow] at this

/-- Inverted Gauss points with both orders. -/
example : (∃ C C', phConstraints Together.cart .node "LG_inv" 1 1 1 [2, 3] [0, 1, 3] = .ok C ∧ phConstraints Together.cart .node "LG_inv" 1 1 1 [3] [1, 3] = .ok C' ∧ ∀ v q q', C v q → C' (rest 2 v) q') ∧
    ∃ C C' v, phConstraints noDynamics .node "LG_inv" 2 1 0 [2, 3] [0, 1, 3] = .ok C ∧ phConstraints noDynamics .node "LG_inv" 2 1 0 [3] [1, 3] = .ok C' ∧ (∀ q, C v q) ∧ ∀ q, ¬ C' (rest 2 v) q := by
  have hg : "LG_inv" ∈ gaussInv := by decide
  have hn : ∀ q ∈ [2, 3], nColToNNodes "LG_inv" q = .ok (q + 1) := fun q _ => by simp [nColToNNodes, hg]
  have hc : ∀ o, ∀ q ∈ [2, 3], collPoints q "LG_inv" o = .ok (LG q) := fun o p _ => by simp [collPoints]
  exact ⟨C201_tail_inv_partial hg Together.cart 1 1 (by simp) (by decide) (coll := fun p => LG p) (hc 1) (coll2 := fun p => LG p) (hc 2) (n := fun q => q + 1) hn (by simp) times,
    C201_tail_refuted_inv hg (by simp) (by decide) (coll := fun p => LG p) (hc 2) (coll2 := fun p => LG p) (hc 2) (n := fun q => q + 1) hn (by simp) times⟩

/-- The counterexample with Lobatto points. -/
example : ∃ C C' v, phConstraints noDynamics .node "LGL" 1 1 0 [2, 3] [0, 1, 3] = .ok C ∧ phConstraints noDynamics .node "LGL" 1 1 0 [3] [1, 3] = .ok C' ∧ (∀ q, C v q) ∧ ∀ q, ¬ C' (rest 2 v) q :=
  C201_tail_refuted_all (by decide) (by decide) (coll := fun p => LGL p) (fun p _ => by simp [collPoints]) (coll2 := fun p => LGL p) (fun p _ => by simp [collPoints]) (n := fun q => q)
    (fun q _ => by simp [nColToNNodes, gaussLike, radauInv_eq, gauss2_eq, gaussInv_eq, radauLike, lobatoLike]) (by norm_num) (by norm_num)

/-- Both for a cart in two segments of Legendre-Gauss points. -/
example : ∃ C C', phConstraints Together.cart .node "LG" 2 1 1 [2, 3] [0, 1, 3] = .ok C ∧ phConstraints Together.cart .node "LG" 2 1 1 [3] [1, 3] = .ok C' ∧
    (∀ v q q', C v q → C' (rest 2 v) q') ∧ ∀ v w q q' q'', C v q → C' w q' → v.x 3 = w.x 0 → v.xd 3 = w.xd 0 → C (follow 2 v w) q'' := by
  have hn : ∀ q ∈ [2, 3], nColToNNodes "LG" q = .ok (q + 1) := fun q _ => by
    have : "LG" ∈ gaussLike := by decide
    simp [nColToNNodes, this]
  obtain ⟨C, C', hC, hC', h⟩ := C201_tail_partial (scheme := "LG") (by decide) (by decide) (order := 2) (by norm_num) (Or.inl le_rfl) Together.cart 1 1 (p := 2) (ps := [3]) (by simp) (by decide)
    (coll := fun p => LG p) (fun p _ => by simp [collPoints]) (coll2 := fun p => LG p) (fun p _ => by simp [collPoints]) (n := fun q => q + 1) hn (t := 0) (ext := [1, 3]) (by simp) times
  obtain ⟨P, P', hP, hP', h'⟩ := C201_replace (scheme := "LG") (by decide) (order := 2) (by norm_num) (Or.inl le_rfl) Together.cart 1 1 (p := 2) (ps := [3]) (by simp) (by decide)
    (coll := fun p => LG p) (fun p _ => by simp [collPoints]) (coll2 := fun p => LG p) (fun p _ => by simp [collPoints]) (n := fun q => q + 1) hn (t := 0) (ext := [1, 3]) (by simp) times
  obtain rfl := Except.ok.inj (hC.symm.trans hP)
  obtain rfl := Except.ok.inj (hC'.symm.trans hP')
  exact ⟨C, C', hC, hC', h, h'⟩

/-- Resting without force is best for the cart, and so is the rest of it. -/
example (W : Ph.Weights) (hW : ∀ p i, 0 ≤ W p "LG" 2 "u" i) : ∃ C C', phConstraints Together.cart .node "LG" 2 1 1 [2, 3] [0, 1, 3] = .ok C ∧ phConstraints Together.cart .node "LG" 2 1 1 [3] [1, 3] = .ok C' ∧
    Best false false (fun v => ∃ q, C v q) (fun v => Ph.uSqCost W "LG" [2, 3] (Ph.hArr [0, 1, 3]) (ctrl 1 v)) 7 still ∧
    Best true false (fun v => ∃ q, C' v q) (fun v => Ph.uSqCost W "LG" [3] (Ph.hArr [1, 3]) (ctrl 1 v)) 4 still := by
  have hg : "LG" ∈ gaussLike := by decide
  have hn : ∀ q ∈ [2, 3], nColToNNodes "LG" q = .ok (q + 1) := fun q _ => by simp [nColToNNodes, hg]
  have hc : ∀ q ∈ [2, 3], collPoints q "LG" 2 = .ok (LG q) := fun p _ => by simp [collPoints]
  obtain ⟨C, hC, hv⟩ := C101_feasible (scheme := "LG") (by decide) (order := 2) (by norm_num) (Or.inl le_rfl) Together.cart 1 1 (points := [2, 3]) (by simp) (by decide)
    (coll := fun p => LG p) hc (coll2 := fun p => LG p) hc (n := fun q => q + 1) hn (ext := [0, 1, 3]) (by simp) times
  obtain ⟨P, C', hP, hC', -⟩ := C201_tail_partial (scheme := "LG") (by decide) (by decide) (order := 2) (by norm_num) (Or.inl le_rfl) Together.cart 1 1 (p := 2) (ps := [3]) (by simp) (by decide)
    (coll := fun p => LG p) hc (coll2 := fun p => LG p) hc (n := fun q => q + 1) hn (t := 0) (ext := [1, 3]) (by simp) times
  have hb : Best false false (fun v => ∃ q, C v q) (fun v => Ph.uSqCost W "LG" [2, 3] (Ph.hArr [0, 1, 3]) (ctrl 1 v)) 7 still := by
    refine ⟨⟨0, (hv still 0).2 ⟨⟨fun _ _ => 0, fun s hs c hc => ⟨by rw [degree_zero]; exact WithBot.bot_lt_coe _, by simp [still], by simp [still], by simp [still], by simp [still]⟩⟩,
      ⟨fun _ s _ c _ => by simp [still], fun _ c _ => by simp [still], fun _ c _ => by simp [still]⟩, fun s hs m hm => by simp [still, Together.cart, zero], fun s hs c hc => ⟨0, ?_⟩⟩⟩,
      fun w c d _ _ _ _ _ h1 h2 => still_cheap W hW w h1 h2⟩
    refine ⟨by rw [degree_zero]; exact WithBot.bot_lt_coe _, by simp [still]⟩
  exact ⟨C, C', hC, hC', hb, C201_optimal_partial (scheme := "LG") (by decide) (by decide) (order := 2) (by norm_num) (Or.inl le_rfl) (p := 2) (ps := [3]) (by simp) (by decide)
    (coll := fun p => LG p) hc (coll2 := fun p => LG p) hc (n := fun q => q + 1) hn (t := 0) (ext := [1, 3]) (by simp) times hC hC' W hb⟩

end Chords.Rest
