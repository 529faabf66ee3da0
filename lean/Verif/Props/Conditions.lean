import Verif.Model.Conditions
import Verif.Props.HermitePs

/-! # C176: every condition given to the optimiser says something -/

namespace Chords.Conditions
open Chords.Points Chords.PhScheme Chords.Equi Chords.Props Chords.BuTd Chords.BuTdInterp

/-- No condition is empty. -/
def Full (l : List ℕ) : Prop := ∀ k ∈ l, 0 < k

theorem full_append {l m : List ℕ} : Full (l ++ m) ↔ Full l ∧ Full m := by
  simp only [Full, List.mem_append]
  exact ⟨fun h => ⟨fun k hk => h k (.inl hk), fun k hk => h k (.inr hk)⟩, fun h k hk => hk.elim (h.1 k) (h.2 k)⟩

theorem full_nil : Full [] := by simp [Full]

theorem full_cons {k : ℕ} {l : List ℕ} : Full (k :: l) ↔ 0 < k ∧ Full l := by simp [Full]

theorem full_flatten {L : List (List ℕ)} : Full L.flatten ↔ ∀ l ∈ L, Full l := by
  simp only [Full, List.mem_flatten]
  exact ⟨fun h l hl k hk => h k ⟨l, hl, hk⟩, fun h k ⟨l, hl, hk⟩ => h l hl k hk⟩

theorem full_times {n : ℕ} {l : List ℕ} : Full (times n l) ↔ (0 < n → Full l) := by
  rw [times, full_flatten]
  exact ⟨fun h hn => h l (by simp; omega), fun h m hm => by
    have := List.mem_replicate.1 hm
    rw [this.2]
    exact h (by omega)⟩

theorem full_when {b : Prop} [Decidable b] {l : List ℕ} : Full (when b l) ↔ (b → Full l) := by
  by_cases h : b <;> simp [when, h, full_nil]

variable {order n_q n_u n_f : ℕ}

theorem single_full {scheme : String} {n_coll n_arr n_nodes : ℕ} (ho : 1 ≤ order) (hq : 0 < n_q) (hf : 0 < n_f) (ha : 2 ≤ n_arr) (hn : 0 < n_nodes) :
    Full (buSizes scheme n_coll n_arr order n_q n_f) ∧ Full (tdSizes n_coll n_arr order n_q n_f) ∧ Full (nodeSizes scheme n_coll n_nodes order n_q n_f) := by
  have h1 : 0 < (n_arr - 1) * n_q := Nat.mul_pos (by omega) hq
  have h2 : 0 < n_arr * n_q := Nat.mul_pos (by omega) hq
  have h3 : 0 < order * n_q := Nat.mul_pos ho hq
  have h4 : 0 < n_nodes * n_q := Nat.mul_pos hn hq
  have h5 : 0 < n_nodes * (order * n_q) := Nat.mul_pos hn h3
  refine ⟨?_, ?_, ?_⟩
  · simp only [buSizes, full_append, full_when, full_times, full_cons, full_nil, and_true]
    tauto
  · simp only [tdSizes, full_append, full_times, full_cons, full_nil, and_true]
    tauto
  · unfold nodeSizes
    split_ifs <;> simp only [full_append, full_when, full_times, full_cons, full_nil, and_true] <;> tauto

/-- C176, one interval: the conditions of bottom-up and top-down problems are never empty. -/
theorem C176_single {scheme : String} (hs : scheme ∈ buImplemented) {N : ℕ} (hN : minPoints scheme ≤ N) (ho : 1 ≤ order) (hq : 0 < n_q) (hf : 0 < n_f) :
    ∃ full, buArrPoints N scheme order = .ok full ∧ tdConstructionPoints N scheme order = .ok full ∧
      Full (buSizes scheme N full.length order n_q n_f) ∧ Full (tdSizes N full.length order n_q n_f) := by
  obtain ⟨coll', constr, full, s, k1, k2, k3, k4, hfull, k5, k6, hsort, hlast, hlen, hd, hsl, -, -⟩ := constr_length hs ho hN
  have := full_two hfull hlast
  have := single_full (scheme := scheme) (n_coll := N) (n_nodes := 1) ho hq hf this one_pos
  exact ⟨full, k4, k5, this.1, this.2.1⟩

/-- C176, one interval, node based. -/
theorem C176_node {scheme : String} (hs : scheme ∈ implemented) {N : ℕ} (hN : minPoints scheme ≤ N) {n : ℕ} (hn : nColToNNodes scheme N = .ok n)
    (ho : 1 ≤ order) (hq : 0 < n_q) (hf : 0 < n_f) : Full (nodeSizes scheme N n order n_q n_f) := by
  have := nodes_two hs hN hn
  exact (single_full (scheme := scheme) (n_coll := N) (n_arr := 2) ho hq hf le_rfl (by omega)).2.2

/-- C176, equispaced problems: empty conditions appear exactly in the Hermite-Simpson schemes with straight controls if there are no controls. -/
theorem C176_equi {scheme : String} {N : ℕ} (hN : 0 < N) (ho : 1 ≤ order) (hq : 0 < n_q) (hf : 0 < n_f) :
    Full (equiSizes scheme N order n_q n_u n_f) ↔ (contains scheme "hs" = true → contains scheme "parab" = false → 0 < n_u) := by
  have h3 : 0 < order * n_q := Nat.mul_pos ho hq
  simp only [equiSizes, full_append, full_when, full_times, full_cons, full_nil, and_true]
  tauto

/-- C176, segmented problems: there are no empty conditions exactly if there are controls, and the order is 2 or more or the scheme is node based of Radau or Lobatto. -/
theorem C176_ph {mode : Mode} {scheme : String} {nodes : ℕ → ℕ} {points : List ℕ} {ext : List ℝ} (hp : points ≠ []) (hpos : ∀ p ∈ points, 0 < p)
    (hnodes : ∀ p ∈ points, 0 < nodes p) (ho : 1 ≤ order) (hq : 0 < n_q) (hf : 0 < n_f) :
    Full (phSizes mode scheme nodes order n_q n_u n_f points ext) ↔
      0 < n_u ∧ (2 ≤ order ∨ mode = .node ∧ scheme ∉ gauss2 ++ gaussInv ++ gaussLike) := by
  have hl : 0 < points.length := List.length_pos_of_ne_nil hp
  have h3 : 0 < order * n_q := Nat.mul_pos ho hq
  have hs : (0 < (order - 1) * n_q) ↔ 2 ≤ order := by
    rw [Nat.mul_pos_iff_of_pos_right hq]
    omega
  have hmem : ∀ i < points.length, points.getD i 0 ∈ points := fun i hi => by
    rw [List.getD_eq_getElem _ _ hi]
    exact List.getElem_mem hi
  have key : Full ((segs points ext).map (phSegSizes mode scheme nodes order n_q)).flatten ↔
      (2 ≤ order ∨ mode = .node ∧ scheme ∉ gauss2 ++ gaussInv ++ gaussLike) := by
    rw [full_flatten]
    simp only [segs, List.map_map, List.mem_map, List.mem_range, Function.comp_apply, forall_exists_index, and_imp, forall_apply_eq_imp_iff₂]
    constructor
    · intro h
      have h0 := h 0 hl
      have h1 := h (points.length - 1) (by omega)
      cases mode
      · simp only [phSegSizes, phTdSizes, full_append, full_cons, full_nil, and_true, hs] at h0
        exact .inl h0.1.2
      · simp only [phSegSizes, phBuSizes, full_append, full_cons, full_nil, and_true, hs] at h0
        exact .inl h0.1.1.2
      · simp only [phSegSizes, phNodeSizes, full_append, full_when, full_cons, full_nil, and_true, hs, decide_eq_true_eq] at h0 h1
        by_cases h2 : 2 ≤ order
        · exact .inl h2
        · refine .inr ⟨rfl, fun hm => h2 ?_⟩
          rcases List.mem_append.1 hm with hm | hm
          · rcases List.mem_append.1 hm with hm | hm
            · exact (h0.1.1.1.1.1.1.2 hm).1
            · exact (h0.1.2 hm).2 trivial
          · exact (h1.2 hm).2 trivial
    · intro h i hi
      have hn := hpos _ (hmem i hi)
      have hnn := hnodes _ (hmem i hi)
      generalize points.getD i 0 = n at *
      have h6 : 0 < n * n_q := Nat.mul_pos hn hq
      cases mode
      · have h2 : 2 ≤ order := by simpa using h
        simp only [phSegSizes, phTdSizes, full_append, full_when, full_flatten, full_cons, full_nil, and_true, hs, List.mem_map, forall_exists_index, and_imp,
          forall_apply_eq_imp_iff₂]
        exact ⟨⟨fun _ _ => ⟨⟨h6, hq⟩, fun _ => hq⟩, h2⟩, fun _ => h2⟩
      · have h2 : 2 ≤ order := by simpa using h
        simp only [phSegSizes, phBuSizes, full_append, full_when, full_times, full_cons, full_nil, and_true, hs]
        exact ⟨⟨⟨⟨hq, fun _ => hq⟩, h2⟩, fun _ => h2⟩, fun _ => ⟨h6, hq⟩⟩
      · have h5 : 0 < nodes n * (order * n_q) := Nat.mul_pos hnn h3
        simp only [phSegSizes, phNodeSizes, full_append, full_when, full_cons, full_nil, and_true, hs]
        have h7 : ∀ l, l ∈ [gauss2, gaussInv, gaussLike] → scheme ∈ l → 2 ≤ order := by
          intro l hl hm
          rcases h with h | ⟨-, h⟩
          · exact h
          · refine absurd ?_ h
            simp only [List.mem_cons, List.not_mem_nil, or_false] at hl
            rcases hl with rfl | rfl | rfl <;> simp [hm]
        have a1 := h7 gauss2 (by simp)
        have a2 := h7 gaussInv (by simp)
        have a3 := h7 gaussLike (by simp)
        exact ⟨⟨⟨⟨⟨⟨⟨h5, fun hm => ⟨a1 hm, fun _ => a1 hm⟩⟩, fun _ => ⟨h3, fun _ => h3⟩⟩, fun _ => h3⟩, fun _ => h3⟩, fun _ => h3⟩,
          fun hm => ⟨⟨h3, hq⟩, fun _ => a2 hm⟩⟩, fun hm => ⟨⟨h3, hq⟩, fun _ => a3 hm⟩⟩
  rw [phSizes, full_append, full_append, full_append, key, full_times, full_times]
  simp only [full_cons, full_nil, and_true]
  tauto

/-- C176 fails for first order problems in segments, for example bottom-up with one control. -/
theorem C176_order_refuted : ¬ Full (phSizes .bu "LG" id 1 1 1 1 [3] [0, 1]) := by
  rw [C176_ph (by simp) (by simp) (by simp) le_rfl one_pos one_pos]
  simp

/-- And for problems without controls, in segments or with the scheme `hs`. -/
theorem C176_controls_refuted : ¬ Full (phSizes .td "LGL" id 2 1 0 2 [3] [0, 1]) ∧ ¬ Full (equiSizes "hs" 10 2 1 0 2) := by
  rw [C176_ph (by simp) (by simp) (by simp) (by omega) one_pos two_pos, C176_equi (by norm_num) (by omega) one_pos two_pos]
  refine ⟨by simp, fun h => ?_⟩
  have := h (by decide) (by decide)
  omega

/-- The second order problems with controls have no empty conditions. -/
example : Full (phSizes .bu "LG" id 2 1 1 2 [3, 4] [0, 1, 2]) :=
  (C176_ph (by simp) (by simp) (by simp) (by omega) one_pos two_pos).2 ⟨one_pos, .inl le_rfl⟩

/-- Nor those of one interval without controls. -/
example : ∃ full, buArrPoints 3 "LG" 1 = .ok full ∧ tdConstructionPoints 3 "LG" 1 = .ok full ∧ Full (buSizes "LG" 3 full.length 1 1 1) ∧ Full (tdSizes 3 full.length 1 1 1) :=
  C176_single (by decide) (by decide) le_rfl one_pos one_pos

example : Full (nodeSizes "LG" 3 4 1 1 1) := C176_node (by decide) (by decide) rfl le_rfl one_pos one_pos

end Chords.Conditions
