import Verif.Model.Expand
import Mathlib.Tactic.Linarith
import Mathlib.Tactic.Ring

/-! # Lemmas about block lists -/

namespace Chords.Expand

/-- `bs` are `M` blocks of `n` entries each. -/
def Blocks (n M : ℕ) (bs : List (List ℝ)) : Prop := bs.length = M ∧ ∀ b ∈ bs, b.length = n

/-- All entries of a residual vanish. -/
def AllZero (r : List ℝ) : Prop := ∀ t ∈ r, t = 0

theorem flatten_length {n M : ℕ} {bs : List (List ℝ)} (h : Blocks n M bs) : bs.flatten.length = M * n := by
  obtain ⟨rfl, h⟩ := h
  induction bs with
  | nil => simp
  | cons b t ih =>
    have := ih (fun b hb => h b (by simp [hb]))
    simp only [List.flatten_cons, List.length_append, this, h b (by simp), List.length_cons]
    ring

theorem drop_flatten {n : ℕ} {bs : List (List ℝ)} (h : ∀ b ∈ bs, b.length = n) (k : ℕ) :
    bs.flatten.drop (n * k) = (bs.drop k).flatten := by
  induction k generalizing bs with
  | zero => simp
  | succ k ih =>
    cases bs with
    | nil => simp
    | cons b t =>
      have hb : b.length = n := h b (by simp)
      have := ih (bs := t) (fun b hb => h b (by simp [hb]))
      rw [List.flatten_cons, List.drop_succ_cons, ← this, show n * (k + 1) = b.length + n * k by rw [hb]; ring,
        List.drop_append]
      simp

theorem parts_flatten {n M : ℕ} {bs : List (List ℝ)} (h : Blocks n M bs) : parts bs.flatten n M = bs := by
  obtain ⟨rfl, h⟩ := h
  apply List.ext_getElem
  · simp [parts]
  · intro i h1 h2
    simp only [parts, List.getElem_map, List.getElem_range, drop_flatten h]
    rw [List.drop_eq_getElem_cons h2, List.flatten_cons, List.take_left' (h _ (List.getElem_mem h2))]

theorem div_len {n M : ℕ} {bs : List (List ℝ)} (h : Blocks n M bs) (hM : 1 ≤ M) : bs.flatten.length / M = n := by
  rw [flatten_length h]
  exact Nat.mul_div_cancel_left n hM

theorem drop_first {n M : ℕ} {bs : List (List ℝ)} (h : Blocks n M bs) : bs.flatten.drop n = bs.tail.flatten := by
  have := drop_flatten h.2 1
  rwa [Nat.mul_one, List.drop_one] at this

theorem tail_blocks {n M : ℕ} {bs : List (List ℝ)} (h : Blocks n M bs) : Blocks n (M - 1) bs.tail :=
  ⟨by simp [h.1], fun b hb => h.2 b (List.mem_of_mem_tail hb)⟩

theorem dropLast_blocks {n M : ℕ} {bs : List (List ℝ)} (h : Blocks n M bs) : Blocks n (M - 1) bs.dropLast :=
  ⟨by simp [h.1], fun b hb => h.2 b (List.dropLast_subset _ hb)⟩

theorem lastPart_append (v a : List ℝ) (n : ℕ) (ha : a.length = n) (hv : n = 0 → v = []) : lastPart (v ++ a) n = a := by
  unfold lastPart
  split_ifs with h
  · rw [hv h]; rfl
  · rw [show (v ++ a).length - n = v.length by simp [ha]]
    simp

theorem allZero_append (a b : List ℝ) : AllZero (a ++ b) ↔ AllZero a ∧ AllZero b := by
  simp only [AllZero, List.mem_append, or_imp, forall_and]

theorem allZero_flatten (l : List (List ℝ)) : AllZero l.flatten ↔ ∀ b ∈ l, AllZero b := by
  simp only [AllZero, List.mem_flatten]
  constructor
  · intro h b hb t ht
    exact h t ⟨b, hb, ht⟩
  · rintro h t ⟨b, hb, ht⟩
    exact h b hb t ht

theorem allZero_sub : ∀ {a b : List ℝ}, a.length = b.length → (AllZero (sub a b) ↔ a = b)
  | [], [], _ => by simp [sub, AllZero]
  | x :: a, y :: b, h => by
    have := allZero_sub (a := a) (b := b) (by simpa using h)
    simp only [sub, AllZero] at this
    simp only [sub, AllZero, List.zipWith_cons_cons, List.mem_cons, forall_eq_or_imp, this, List.cons.injEq, sub_eq_zero]

theorem casSub_eq {a b : List ℝ} (h : a.length = b.length) : casSub a b = .ok (sub a b) := by
  simp only [casSub, h, if_true, sub]

theorem sub_append {a b c d : List ℝ} (h : a.length = c.length) : sub (a ++ b) (c ++ d) = sub a c ++ sub b d := by
  simp only [sub]
  exact List.zipWith_append h

theorem flatten_inj {n : ℕ} : ∀ {as bs : List (List ℝ)}, (∀ b ∈ as, b.length = n) → (∀ b ∈ bs, b.length = n) →
    as.length = bs.length → (as.flatten = bs.flatten ↔ as = bs)
  | [], [], _, _, _ => by simp
  | a :: as, b :: bs, ha, hb, h => by
    have hl : a.length = b.length := by rw [ha a (by simp), hb b (by simp)]
    have ih := flatten_inj (as := as) (bs := bs) (fun x hx => ha x (by simp [hx])) (fun x hx => hb x (by simp [hx]))
      (by simpa using h)
    simp only [List.flatten_cons, List.cons.injEq, ← ih]
    exact ⟨fun e => List.append_inj e hl, fun e => by rw [e.1, e.2]⟩

theorem dropLast_getLastD {α : Type} (l : List α) (d : α) (h : l ≠ []) : l.dropLast ++ [l.getLastD d] = l := by
  have : l.getLastD d = l.getLast h := by
    cases l with
    | nil => exact absurd rfl h
    | cons a t => simp [List.getLastD]
  rw [this]
  exact List.dropLast_append_getLast h

theorem flatten_split {M n : ℕ} {ds : List (List ℝ)} (h : Blocks n M ds) (hM : 1 ≤ M) :
    ds.flatten = ds.dropLast.flatten ++ ds.getLastD [] := by
  have hne : ds ≠ [] := by rintro rfl; have := h.1; simp at this; omega
  conv_lhs => rw [← dropLast_getLastD ds [] hne]
  simp

theorem getLastD_length {M n : ℕ} {ds : List (List ℝ)} (h : Blocks n M ds) (hM : 1 ≤ M) : (ds.getLastD []).length = n := by
  have hne : ds ≠ [] := by rintro rfl; have := h.1; simp at this; omega
  apply h.2
  have e := dropLast_getLastD ds [] hne
  have : ds.getLastD [] ∈ ds.dropLast ++ [ds.getLastD []] := by simp only [List.mem_append, List.mem_singleton, or_true]
  rwa [e] at this

end Chords.Expand
