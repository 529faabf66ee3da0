import Verif.Model.Points
import Verif.Lemmas.RootLists

/-! # Shapes of the point lists -/

namespace Chords.Points
open Chords.Spec Polynomial

/-- Inner points, with -1 in front if `l` and 1 behind if `r`. -/
def Shape (l r : Bool) (N : ℕ) (L : List ℝ) : Prop :=
  ∃ n inner, InnerPoints n inner ∧ N = n + l.toNat + r.toNat ∧
    L = (if l then [-1] else []) ++ inner ++ (if r then [1] else [])

theorem Shape.length {l r N L} (h : Shape l r N L) : L.length = N := by
  obtain ⟨n, inner, h1, h2, rfl⟩ := h
  cases l <;> cases r <;> simp [h1.1, h2]

theorem Shape.sorted {l r N L} (h : Shape l r N L) : L.Pairwise (· < ·) := by
  obtain ⟨n, inner, h1, h2, rfl⟩ := h
  have hl : ∀ x ∈ inner, -1 < x := fun x hx => (h1.2.2 x hx).1
  have hr : ∀ x ∈ inner, x < 1 := fun x hx => (h1.2.2 x hx).2
  cases l <;> cases r <;> simp [List.pairwise_append, h1.2.1] <;> try exact hl
  · exact hr
  · refine ⟨?_, hr⟩
    rintro a (h | rfl)
    · exact hl a h
    · norm_num

theorem Shape.mem {l r N L} (h : Shape l r N L) : ∀ x ∈ L, -1 ≤ x ∧ x ≤ 1 := by
  obtain ⟨n, inner, h1, h2, rfl⟩ := h
  intro x hx
  cases l <;> cases r <;> simp at hx
  · exact ⟨(h1.2.2 x hx).1.le, (h1.2.2 x hx).2.le⟩
  · rcases hx with h | rfl
    · exact ⟨(h1.2.2 x h).1.le, (h1.2.2 x h).2.le⟩
    · norm_num
  · rcases hx with rfl | h
    · norm_num
    · exact ⟨(h1.2.2 x h).1.le, (h1.2.2 x h).2.le⟩
  · rcases hx with rfl | h | rfl
    · norm_num
    · exact ⟨(h1.2.2 x h).1.le, (h1.2.2 x h).2.le⟩
    · norm_num

theorem Shape.left_mem {l r N L} (h : Shape l r N L) : (-1 : ℝ) ∈ L ↔ l = true := by
  obtain ⟨n, inner, h1, h2, rfl⟩ := h
  have : (-1 : ℝ) ∉ inner := fun hx => lt_irrefl _ (h1.2.2 _ hx).1
  cases l <;> cases r <;> simp [this]; norm_num

theorem Shape.right_mem {l r N L} (h : Shape l r N L) : (1 : ℝ) ∈ L ↔ r = true := by
  obtain ⟨n, inner, h1, h2, rfl⟩ := h
  have : (1 : ℝ) ∉ inner := fun hx => lt_irrefl _ (h1.2.2 _ hx).2
  cases l <;> cases r <;> simp [this]; norm_num

theorem Shape.negRev {l r N L} (h : Shape l r N L) : Shape r l N (negRev L) := by
  obtain ⟨n, inner, h1, h2, rfl⟩ := h
  refine ⟨n, Points.negRev inner, ⟨by simp [Points.negRev, h1.1], ?_, ?_⟩, by omega, ?_⟩
  · unfold Points.negRev
    rw [List.pairwise_map, List.pairwise_reverse]
    exact h1.2.1.imp (fun h => by simpa using h)
  · intro x hx
    simp [Points.negRev] at hx
    have := h1.2.2 _ hx
    constructor <;> linarith
  · cases l <;> cases r <;> simp [Points.negRev]

theorem shape_inner {n : ℕ} {L : List ℝ} (h : InnerPoints n L) : Shape false false n L :=
  ⟨n, L, h, by simp, by simp⟩

theorem shape_left {n : ℕ} {L : List ℝ} (h : InnerPoints n L) : Shape true false (n + 1) (-1 :: L) :=
  ⟨n, L, h, by simp, by simp⟩

theorem shape_right {n : ℕ} {L : List ℝ} (h : InnerPoints n L) : Shape false true (n + 1) (L ++ [1]) :=
  ⟨n, L, h, by simp, by simp⟩

theorem shape_both {n : ℕ} {L : List ℝ} (h : InnerPoints n L) : Shape true true (n + 2) (-1 :: (L ++ [1])) :=
  ⟨n, L, h, by simp, by simp⟩

theorem LG_shape (N : ℕ) : Shape false false N (LG N) := shape_inner (legendre_roots N)

theorem LGR_shape {N : ℕ} (hN : 1 ≤ N) : Shape true false N (LGR N) := by
  obtain ⟨n, rfl⟩ : ∃ n, N = n + 1 := ⟨N - 1, by omega⟩
  obtain ⟨l, h1, h2⟩ := radau_roots n
  unfold LGR
  rw [Nat.add_sub_cancel, h1]
  exact shape_left h2

theorem LGL_shape {N : ℕ} (hN : 2 ≤ N) : Shape true true N (LGL N) := by
  obtain ⟨n, rfl⟩ : ∃ n, N = n + 2 := ⟨N - 2, by omega⟩
  exact shape_both (legendre_deriv_roots n)

theorem LGLm_shape (N : ℕ) : Shape false false N (LGLm N) := by
  apply shape_inner
  have h := legendre_deriv_roots N
  unfold LGLm LGL
  simpa using h

theorem JG_shape (N : ℕ) {order : ℕ} (ho : 1 ≤ order) : Shape false false N (JG N order) := by
  have : (1 : ℝ) ≤ order := by exact_mod_cast ho
  exact shape_inner (jacobi_roots (by linarith) (by norm_num) N)

theorem JGR_shape {N : ℕ} (hN : 1 ≤ N) {order : ℕ} (ho : 1 ≤ order) : Shape true false N (JGR N order) := by
  obtain ⟨n, rfl⟩ : ∃ n, N = n + 1 := ⟨N - 1, by omega⟩
  have : (1 : ℝ) ≤ order := by exact_mod_cast ho
  exact shape_left (jacobi_roots (by linarith) (by norm_num) n)

theorem JGRinv_shape {N : ℕ} (hN : 1 ≤ N) {order : ℕ} (ho : 1 ≤ order) : Shape false true N (JGRinv N order) := by
  obtain ⟨n, rfl⟩ : ∃ n, N = n + 1 := ⟨N - 1, by omega⟩
  have : (1 : ℝ) ≤ order := by exact_mod_cast ho
  exact shape_right (jacobi_roots (by linarith) (by norm_num) n)

theorem JGL_shape {N : ℕ} (hN : 2 ≤ N) {order : ℕ} (ho : 1 ≤ order) : Shape true true N (JGL N order) := by
  obtain ⟨n, rfl⟩ : ∃ n, N = n + 2 := ⟨N - 2, by omega⟩
  have : (1 : ℝ) ≤ order := by exact_mod_cast ho
  exact shape_both (jacobi_roots (by linarith) (by norm_num) n)

/-- The symmetrisation in `CG` and `CGL` changes nothing when the cosines are antisymmetric. -/
theorem sym_list (N : ℕ) (θ : ℕ → ℝ) (hθ : ∀ i < N, Real.cos (θ (N - 1 - i)) = -Real.cos (θ i)) :
    (let tau := (((List.range N).map θ).map Real.cos).reverse
     List.zipWith (fun a b => (a - b) / 2) tau tau.reverse) = (List.range N).map fun i => -Real.cos (θ i) := by
  apply List.ext_getElem
  · simp
  · intro i h1 h2
    simp at h2
    simp [hθ i h2]
    ring

theorem CG_eq (N : ℕ) : CG N = (List.range N).map fun (i : ℕ) => -Real.cos (Real.pi * (2 * (i : ℝ) + 1) / N / 2) := by
  apply sym_list
  intro i hi
  have hN : (N : ℝ) ≠ 0 := by have : N ≠ 0 := by omega
                              exact_mod_cast this
  rw [← Real.cos_pi_sub]
  congr 1
  have : ((N - 1 - i : ℕ) : ℝ) = N - 1 - i := by
    rw [Nat.sub_sub, Nat.cast_sub (by omega)]; push_cast; ring
  rw [this]
  field_simp
  ring

theorem CGL_eq {N : ℕ} (h2 : 2 ≤ N) :
    CGL N = (List.range N).map fun (i : ℕ) => -Real.cos (Real.pi * (i : ℝ) / ((N : ℝ) - 1)) := by
  apply sym_list
  intro i hi
  have hN : (N : ℝ) - 1 ≠ 0 := by
    have : (2 : ℝ) ≤ N := by exact_mod_cast h2
    linarith
  rw [← Real.cos_pi_sub]
  congr 1
  have : ((N - 1 - i : ℕ) : ℝ) = N - 1 - i := by
    rw [Nat.sub_sub, Nat.cast_sub (by omega)]; push_cast; ring
  rw [this]
  field_simp

theorem negcos_lt {x y : ℝ} (h0 : 0 ≤ x) (hxy : x < y) (hy : y ≤ Real.pi) : -Real.cos x < -Real.cos y := by
  have := Real.cos_lt_cos_of_nonneg_of_le_pi h0 hy hxy
  linarith

theorem CG_shape (N : ℕ) : Shape false false N (CG N) := by
  apply shape_inner
  rw [CG_eq]
  rcases Nat.eq_zero_or_pos N with rfl | hN
  · simp [InnerPoints]
  have hp := Real.pi_pos
  have hNr : (0 : ℝ) < N := by exact_mod_cast hN
  have hb : ∀ i < N, 0 < Real.pi * (2 * (i : ℝ) + 1) / N / 2 ∧ Real.pi * (2 * (i : ℝ) + 1) / N / 2 < Real.pi := by
    intro i hi
    have : (i : ℝ) + 1 ≤ N := by exact_mod_cast hi
    refine ⟨by positivity, ?_⟩
    rw [div_div, div_lt_iff₀ (by positivity)]
    nlinarith
  apply innerPoints_map
  · intro i j hij hj
    apply negcos_lt (hb i (by omega)).1.le _ (hb j hj).2.le
    have : (i : ℝ) < j := by exact_mod_cast hij
    rw [div_div, div_div, div_lt_div_iff_of_pos_right (by positivity)]
    nlinarith
  · intro i hi
    constructor
    · have := negcos_lt le_rfl (hb i hi).1 (hb i hi).2.le
      simpa using this
    · have := negcos_lt (hb i hi).1.le (hb i hi).2 le_rfl
      simpa using this

theorem CGL_shape {N : ℕ} (h2 : 2 ≤ N) : Shape true true N (CGL N) := by
  rw [CGL_eq h2]
  obtain ⟨n, rfl⟩ : ∃ n, N = n + 2 := ⟨N - 2, by omega⟩
  have hp := Real.pi_pos
  have e : ((n + 2 : ℕ) : ℝ) - 1 = n + 1 := by push_cast; ring
  rw [e]
  have hn : (0 : ℝ) ≤ n := Nat.cast_nonneg n
  have hlast : -Real.cos (Real.pi * ((n + 1 : ℕ) : ℝ) / ((n : ℝ) + 1)) = 1 := by
    push_cast
    rw [mul_div_assoc, div_self (by positivity)]; simp
  rw [List.range_succ, List.map_append, List.range_succ_eq_map, List.map_cons, List.map_map]
  simp only [List.map_cons, List.map_nil, hlast]
  have h0 : -Real.cos (Real.pi * ((0 : ℕ) : ℝ) / ((n : ℝ) + 1)) = -1 := by simp
  rw [h0]
  apply shape_both
  apply innerPoints_map
  · intro i j hij hj
    simp only [Function.comp]
    have h1 : (i : ℝ) < j := by exact_mod_cast hij
    have h3 : (j : ℝ) + 1 ≤ n := by exact_mod_cast hj
    apply negcos_lt
    · positivity
    · rw [div_lt_div_iff_of_pos_right (by positivity)]; push_cast; nlinarith
    · rw [div_le_iff₀ (by positivity)]; push_cast; nlinarith
  · intro i hi
    simp only [Function.comp]
    have h3 : (i : ℝ) + 1 ≤ n := by exact_mod_cast hi
    have ha : 0 < Real.pi * ((i.succ : ℕ) : ℝ) / ((n : ℝ) + 1) := by positivity
    have hb : Real.pi * ((i.succ : ℕ) : ℝ) / ((n : ℝ) + 1) < Real.pi := by
      rw [div_lt_iff₀ (by positivity)]; push_cast; nlinarith
    constructor
    · simpa using negcos_lt le_rfl ha hb.le
    · simpa using negcos_lt ha.le hb le_rfl

theorem CGR_shape {N : ℕ} (h1 : 1 ≤ N) : Shape true false N (CGR N) := by
  obtain ⟨n, rfl⟩ : ∃ n, N = n + 1 := ⟨N - 1, by omega⟩
  have hp := Real.pi_pos
  have hn : (0 : ℝ) ≤ n := Nat.cast_nonneg n
  have e : 2 * ((n + 1 : ℕ) : ℝ) - 1 = 2 * n + 1 := by push_cast; ring
  unfold CGR
  simp only [List.map_map, e]
  rw [List.range_succ_eq_map, List.map_cons, List.map_map]
  have h0 : ((fun x => -Real.cos x) ∘ fun (i : ℕ) => Real.pi * (2 * (i : ℝ)) / (2 * (n : ℝ) + 1)) 0 = -1 := by simp
  rw [h0]
  apply shape_left
  apply innerPoints_map
  · intro i j hij hj
    simp only [Function.comp]
    have h1 : (i : ℝ) < j := by exact_mod_cast hij
    have h3 : (j : ℝ) + 1 ≤ n := by exact_mod_cast hj
    apply negcos_lt
    · positivity
    · rw [div_lt_div_iff_of_pos_right (by positivity)]; push_cast; nlinarith
    · rw [div_le_iff₀ (by positivity)]; push_cast; nlinarith
  · intro i hi
    simp only [Function.comp]
    have h3 : (i : ℝ) + 1 ≤ n := by exact_mod_cast hi
    have ha : 0 < Real.pi * (2 * ((i.succ : ℕ) : ℝ)) / (2 * (n : ℝ) + 1) := by positivity
    have hb : Real.pi * (2 * ((i.succ : ℕ) : ℝ)) / (2 * (n : ℝ) + 1) < Real.pi := by
      rw [div_lt_iff₀ (by positivity)]; push_cast; nlinarith
    constructor
    · simpa using negcos_lt le_rfl ha hb.le
    · simpa using negcos_lt ha.le hb le_rfl

theorem gaussInv_eq : gaussInv = ["LG_inv", "JG_inv", "CG_inv"] := by decide
theorem gauss2_eq : gauss2 = ["LG2", "JG2", "CG2", "LGLm"] := by decide
theorem radauInv_eq : radauInv = ["LGR_inv", "JGR_inv", "CGR_inv"] := by decide
theorem implemented_eq : implemented = ["LG", "JG", "CG", "LG_inv", "JG_inv", "CG_inv", "LG2", "JG2", "CG2", "LGLm",
    "LGR", "JGR", "CGR", "LGR_inv", "JGR_inv", "CGR_inv", "LGL", "JGL", "CGL", "D2"] := by decide
theorem buImplemented_eq : buImplemented = ["LG", "JG", "CG", "LGR", "JGR", "CGR", "LGR_inv", "JGR_inv", "CGR_inv",
    "LGL", "JGL", "CGL"] := by decide

end Chords.Points
