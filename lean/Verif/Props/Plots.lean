import Verif.Model.NumTools
import Mathlib.Data.List.Sort
import Mathlib.Data.String.Basic
import Mathlib.Tactic.FieldSimp
import Mathlib.Tactic.Linarith
import Std.Data.String.ToNat

/-! # Properties of plots by segments and figure names: C57, C58, C83 -/

namespace Chords.NumTools.Props
open Chords.NumTools

/-! ## C57 -/

section
open Classical
variable {Y : Type}

theorem filter_take {A : Type} (p : A → Prop) (l : List A) (h : l.Pairwise fun a b => p b → p a) :
    l.take (l.countP fun a => decide (p a)) = l.filter fun a => decide (p a) := by
  induction l with
  | nil => simp
  | cons a l ih =>
    obtain ⟨h1, h2⟩ := List.pairwise_cons.1 h
    by_cases ha : p a
    · rw [List.countP_cons_of_pos (by simpa using ha), List.take_succ_cons, ih h2, List.filter_cons_of_pos (by simpa using ha)]
    · have hz : ∀ b ∈ l, ¬ p b := fun b hb hpb => ha (h1 b hb hpb)
      rw [List.countP_cons_of_neg (by simpa using ha), List.countP_eq_zero.2 (by simpa using hz),
        List.filter_cons_of_neg (by simpa using ha), List.filter_eq_nil_iff.2 (by simpa using hz), List.take_zero]

theorem filter_drop {A : Type} (p : A → Prop) (l : List A) (h : l.Pairwise fun a b => p b → p a) :
    l.drop (l.countP fun a => decide (p a)) = l.filter fun a => decide (¬ p a) := by
  induction l with
  | nil => simp
  | cons a l ih =>
    obtain ⟨h1, h2⟩ := List.pairwise_cons.1 h
    by_cases ha : p a
    · rw [List.countP_cons_of_pos (by simpa using ha), List.drop_succ_cons, ih h2, List.filter_cons_of_neg (by simpa using ha)]
    · have hz : ∀ b ∈ l, ¬ p b := fun b hb hpb => ha (h1 b hb hpb)
      rw [List.countP_cons_of_neg (by simpa using ha), List.countP_eq_zero.2 (by simpa using hz),
        List.drop_zero, List.filter_eq_self.2]
      intro b hb
      rcases List.mem_cons.1 hb with rfl | hb
      · simpa using ha
      · simpa using hz b hb

theorem count_eq (S : List (ℝ × Y)) (N : ℕ) (e v : ℝ) :
    searchsorted (S.map fun s => (N * s.1) / e) v = S.countP fun s => decide (N * s.1 / e < v) := by
  rw [searchsorted, List.countP_map]
  rfl

theorem sorted_lt {S : List (ℝ × Y)} (hS : S.Pairwise fun a b => a.1 ≤ b.1) {e : ℝ} (he : 0 < e) (N : ℕ) (v : ℝ) :
    S.Pairwise fun a b => N * b.1 / e < v → N * a.1 / e < v := by
  refine hS.imp ?_
  intro a b hab hb
  refine lt_of_le_of_lt ?_ hb
  gcongr

/-- The samples of a segment. -/
noncomputable def segment (S : List (ℝ × Y)) (N : ℕ) (e : ℝ) (k : ℕ) : List (ℝ × Y) :=
  S.filter fun s => decide (s.1 < (k + 1) * e / N ∧ (k = 0 ∨ k * e / N ≤ s.1))

theorem scale {N : ℕ} (hN : 0 < N) {e : ℝ} (he : 0 < e) (t v : ℝ) : N * t / e < v ↔ t < v * e / N := by
  have : (0 : ℝ) < N := by exact_mod_cast hN
  rw [div_lt_iff₀ he, lt_div_iff₀ this, mul_comm]

theorem slice {S : List (ℝ × Y)} (hS : S.Pairwise fun a b => a.1 ≤ b.1) {N : ℕ} (hN : 0 < N) {e : ℝ} (he : 0 < e) (k : ℕ) (c : ℕ)
    (hc : c = if k = 0 then 0 else searchsorted (S.map fun s => (N * s.1) / e) k) :
    (S.take (searchsorted (S.map fun s => (N * s.1) / e) (k + 1))).drop c = segment S N e k := by
  rw [count_eq, filter_take (fun s : ℝ × Y => N * s.1 / e < k + 1) S (sorted_lt hS he N _)]
  by_cases hk : k = 0
  · rw [hc, if_pos hk, List.drop_zero, segment]
    apply List.filter_congr
    intro s _
    simp [hk, scale hN he]
  · rw [hc, if_neg hk, count_eq]
    have e1 : (S.countP fun s => decide (N * s.1 / e < k))
        = (S.filter fun s => decide (N * s.1 / e < k + 1)).countP fun s => decide (N * s.1 / e < k) := by
      rw [List.countP_filter]
      apply List.countP_congr
      intro s _
      simp only [decide_eq_true_eq, Bool.and_eq_true]
      constructor
      · intro h; exact ⟨h, by linarith⟩
      · exact fun h => h.1
    rw [e1, filter_drop (fun s : ℝ × Y => N * s.1 / e < k) _ ((sorted_lt hS he N _).filter _), List.filter_filter, segment]
    apply List.filter_congr
    intro s _
    rw [← Bool.decide_and, decide_eq_decide]
    rw [scale hN he, scale hN he]
    simp only [hk, false_or, not_lt]
    exact and_comm

theorem plotLoop_eq {S : List (ℝ × Y)} (hS : S.Pairwise fun a b => a.1 ≤ b.1) {N : ℕ} (hN : 0 < N) {e : ℝ} (he : 0 < e)
    (label : String) (n k c : ℕ) (hc : c = if k = 0 then 0 else searchsorted (S.map fun s => (N * s.1) / e) k) :
    plotLoop S (S.map fun s => (N * s.1) / e) label n (k + 1) c = (List.range n).map fun i =>
      (if k + i = 0 ∨ ∀ s ∈ S, (((k + i : ℕ) : ℝ)) * e / N ≤ s.1 then some label else none, segment S N e (k + i)) := by
  induction n generalizing k c with
  | zero => simp [plotLoop]
  | succ n ih =>
    rw [plotLoop, List.range_succ_eq_map, List.map_cons, List.map_map]
    have hs : (S.take (searchsorted (S.map fun s => (N * s.1) / e) ((k + 1 : ℕ) : ℝ))).drop c = segment S N e k := by
      rw [Nat.cast_succ]
      exact slice hS hN he k c hc
    rw [hs, ih (k + 1) _ (by simp)]
    congr 1
    · congr 1
      have : c = 0 ↔ (k + 0 = 0 ∨ ∀ s ∈ S, (((k + 0 : ℕ) : ℝ)) * e / N ≤ s.1) := by
        rw [hc]
        by_cases hk : k = 0
        · simp [hk]
        · rw [if_neg hk, count_eq, List.countP_eq_zero]
          simp only [decide_eq_true_eq, add_zero, hk, false_or]
          constructor
          · intro h s hs
            have := h s hs
            rw [scale hN he] at this
            linarith
          · intro h s hs
            rw [scale hN he]
            have := h s hs
            linarith
      by_cases h : c = 0
      · rw [if_pos h, if_pos (this.1 h)]
      · rw [if_neg h, if_neg fun h' => h (this.2 h')]
    · apply List.map_congr_left
      intro i _
      simp only [Function.comp, Nat.succ_eq_add_one]
      rw [show k + 1 + i = k + (i + 1) by omega]

/-- C57, what is drawn: with increasing times and a positive end time there are `N` segments; segment `k` holds, in order, the
samples with times from `k end/N` (no lower bound for the first one) up to but not including `(k+1) end/N`. -/
theorem C57_segments {S : List (ℝ × Y)} (hS : S.Pairwise fun a b => a.1 ≤ b.1) {N : ℕ} {e : ℝ} (he : 0 < e) (label : String) :
    (plotBySegments S label N e).map Prod.snd = (List.range N).map fun (k : ℕ) =>
      S.filter fun s => decide (s.1 < (k + 1) * e / N ∧ (k = 0 ∨ k * e / N ≤ s.1)) := by
  rcases Nat.eq_zero_or_pos N with rfl | hN
  · rfl
  · rw [plotBySegments]
    rw [plotLoop_eq hS hN he label N 0 0 (by simp), List.map_map]
    apply List.map_congr_left
    intro i _
    simp only [Function.comp, Nat.zero_add]
    rfl

theorem flat_segments {S : List (ℝ × Y)} (hS : S.Pairwise fun a b => a.1 ≤ b.1) {N : ℕ} (hN : 0 < N) {e : ℝ} (he : 0 < e) (m : ℕ) :
    ((List.range (m + 1)).map (segment S N e)).flatten = S.filter fun s => decide (s.1 < (m + 1) * e / N) := by
  induction m with
  | zero => simp [segment, List.range_succ]
  | succ m ih =>
    rw [List.range_succ, List.map_append, List.flatten_append, ih]
    simp only [List.map_cons, List.map_nil, List.flatten_cons, List.flatten_nil, List.append_nil]
    have hN' : (0 : ℝ) < N := by exact_mod_cast hN
    have hle : ((m : ℝ) + 1) * e / N ≤ ((m + 1 : ℕ) + 1 : ℝ) * e / N := by
      push_cast
      gcongr
      linarith
    have hp : S.Pairwise fun a b => b.1 < ((m : ℝ) + 1) * e / N → a.1 < ((m : ℝ) + 1) * e / N :=
      hS.imp fun hab hb => lt_of_le_of_lt hab hb
    rw [← List.take_append_drop (S.countP fun s => decide (s.1 < ((m : ℝ) + 1) * e / N)) (S.filter fun s =>
      decide (s.1 < ((m + 1 : ℕ) + 1 : ℝ) * e / N))]
    have e1 : (S.countP fun s => decide (s.1 < ((m : ℝ) + 1) * e / N))
        = (S.filter fun s => decide (s.1 < ((m + 1 : ℕ) + 1 : ℝ) * e / N)).countP fun s => decide (s.1 < ((m : ℝ) + 1) * e / N) := by
      rw [List.countP_filter]
      apply List.countP_congr
      intro s _
      simp only [decide_eq_true_eq, Bool.and_eq_true]
      exact ⟨fun h => ⟨h, lt_of_lt_of_le h hle⟩, fun h => h.1⟩
    rw [e1, filter_take _ _ (hp.filter _), filter_drop _ _ (hp.filter _), List.filter_filter, List.filter_filter, segment]
    congr 1
    · apply List.filter_congr
      intro s _
      rw [← Bool.decide_and, decide_eq_decide]
      exact ⟨fun h => ⟨h, lt_of_lt_of_le h hle⟩, fun h => h.1⟩
    · apply List.filter_congr
      intro s _
      rw [← Bool.decide_and, decide_eq_decide]
      push_cast
      simp only [Nat.add_eq_zero_iff, one_ne_zero, and_false, false_or, not_lt]
      exact and_comm

/-- C57, the part that holds: every sample before the end time is drawn exactly once and in order, whatever the number of
segments. Missing for the full claim: samples at the end time (`C57_end_refuted`). -/
theorem C57_partial {S : List (ℝ × Y)} (hS : S.Pairwise fun a b => a.1 ≤ b.1) {N : ℕ} (hN : 0 < N) {e : ℝ} (he : 0 < e)
    (label : String) : ((plotBySegments S label N e).map Prod.snd).flatten = S.filter fun s => decide (s.1 < e) := by
  rw [C57_segments hS he]
  have := flat_segments hS hN he (N - 1)
  rw [Nat.sub_add_cancel hN] at this
  have h2 : (((N - 1 : ℕ) : ℝ) + 1) * e / N = e := by
    have hN' : (0 : ℝ) < N := by exact_mod_cast hN
    rw [Nat.cast_sub hN]
    field_simp
    push_cast
    ring
  rw [h2] at this
  exact this

/-- C57 is false for a sample at the end time: it is never drawn. -/
theorem C57_end_refuted {S : List (ℝ × Y)} (hS : S.Pairwise fun a b => a.1 ≤ b.1) {N : ℕ} {e : ℝ} (he : 0 < e)
    (label : String) (y : Y) : (e, y) ∉ ((plotBySegments S label N e).map Prod.snd).flatten := by
  rcases Nat.eq_zero_or_pos N with rfl | hN
  · simp [plotBySegments, plotLoop]
  · rw [C57_partial hS hN he]
    simp

example : ([(0, 1), (1, 5), (2, 3)] : List (ℝ × ℝ)).Pairwise fun a b => a.1 ≤ b.1 := by norm_num

/-! ## C83 -/

/-- C83: segment `k` carries the label exactly when no sample comes before it. -/
theorem C83_label {S : List (ℝ × Y)} (hS : S.Pairwise fun a b => a.1 ≤ b.1) {N : ℕ} {e : ℝ} (he : 0 < e) (label : String) :
    (plotBySegments S label N e).map Prod.fst = (List.range N).map fun (k : ℕ) =>
      if k = 0 ∨ ∀ s ∈ S, (k : ℝ) * e / N ≤ s.1 then some label else none := by
  rcases Nat.eq_zero_or_pos N with rfl | hN
  · rfl
  · rw [plotBySegments]
    rw [plotLoop_eq hS hN he label N 0 0 (by simp), List.map_map]
    apply List.map_congr_left
    intro i _
    simp only [Function.comp, Nat.zero_add]

/-- C83, the part that holds: the label is given once, to the first segment, when the first segment has a sample. -/
theorem C83_once_partial {S : List (ℝ × Y)} (hS : S.Pairwise fun a b => a.1 ≤ b.1) {N : ℕ} {e : ℝ} (he : 0 < e)
    (label : String) (h : ∃ s ∈ S, s.1 < e / N) (k : ℕ) (hk : k < N) :
    ((plotBySegments S label N e).map Prod.fst)[k]? = some (if k = 0 then some label else none) := by
  rw [C83_label hS he, List.getElem?_map, List.getElem?_range hk]
  simp only [Option.map_some]
  congr 1
  by_cases h0 : k = 0
  · simp [h0]
  · rw [if_neg h0, if_neg]
    rintro (h' | h')
    · exact h0 h'
    · obtain ⟨s, hs, hlt⟩ := h
      have := h' s hs
      have h1 : (1 : ℝ) ≤ k := by exact_mod_cast Nat.one_le_iff_ne_zero.2 h0
      have hN' : (0 : ℝ) < N := by exact_mod_cast (lt_of_le_of_lt (Nat.zero_le _) hk)
      have h2 : e / N ≤ k * e / N := by
        gcongr
        nlinarith
      linarith

/-- C83 is false in general: a trajectory that starts in the second of two segments gets the label twice. -/
theorem C83_refuted : (plotBySegments [((3 : ℝ) / 2, (0 : ℝ))] "q" 2 2).map Prod.fst = [some "q", some "q"] := by
  rw [C83_label (by simp) (by norm_num)]
  norm_num [List.range_succ]

end

/-! ## C58 -/

theorem sort_perm {l l' : List String} (h : l.Perm l') :
    l.mergeSort (fun a b => decide (a ≤ b)) = l'.mergeSort (fun a b => decide (a ≤ b)) := by
  have tr : ∀ a b c : String, decide (a ≤ b) = true → decide (b ≤ c) = true → decide (a ≤ c) = true := by
    intro a b c
    simp only [decide_eq_true_eq]
    exact le_trans
  have tot : ∀ a b : String, (decide (a ≤ b) || decide (b ≤ a)) = true := by
    intro a b
    simp only [Bool.or_eq_true, decide_eq_true_eq]
    exact le_total a b
  have p1 := (List.mergeSort_perm l (fun a b => decide (a ≤ b))).trans
    (h.trans (List.mergeSort_perm l' (fun a b => decide (a ≤ b))).symm)
  refine p1.eq_of_pairwise ?_ (List.pairwise_mergeSort tr tot l) (List.pairwise_mergeSort tr tot l')
  intro a b _ _ h1 h2
  simp only [decide_eq_true_eq] at h1 h2
  exact le_antisymm h1 h2

/-- C58: the name does not depend on the order of the schemes. -/
theorem C58_order {l l' : List String} (h : l.Perm l') (problem graph fmt : String) (N q : Option ℤ) (add : Option String) :
    genFigFilename problem graph l fmt N q add = genFigFilename problem graph l' fmt N q add := by
  unfold genFigFilename
  rw [sort_perm h]

theorem foldl_names (l : List String) (t : String) :
    (l.foldl (fun t s => t ++ "--" ++ s) t).toList = t.toList ++ (l.map fun s => '-' :: '-' :: s.toList).flatten := by
  induction l generalizing t with
  | nil => simp
  | cons a l ih => rw [List.foldl_cons, ih]; simp [String.toList_append]

theorem names_inj {l l' : List String} (h : ∀ s ∈ l, '-' ∉ s.toList) (h' : ∀ s ∈ l', '-' ∉ s.toList)
    (e : (l.map fun s => '-' :: '-' :: s.toList).flatten = (l'.map fun s => '-' :: '-' :: s.toList).flatten) : l = l' := by
  induction l generalizing l' with
  | nil =>
    cases l' with
    | nil => rfl
    | cons a l' => simp at e
  | cons a l ih =>
    cases l' with
    | nil => simp at e
    | cons b l' =>
      simp only [List.map_cons, List.flatten_cons, List.cons_append, List.cons.injEq, true_and] at e
      have tw : ∀ (s : String) (m : List String), '-' ∉ s.toList →
          (s.toList ++ (m.map fun s => '-' :: '-' :: s.toList).flatten).takeWhile (· ≠ '-') = s.toList := by
        intro s m hs
        rw [List.takeWhile_append_of_pos]
        · cases m with
          | nil => simp
          | cons c m => simp
        · intro c hc
          simp only [decide_eq_true_eq]
          rintro rfl
          exact hs hc
      have e1 := congrArg (List.takeWhile (· ≠ '-')) e
      rw [tw a l (h a (by simp)), tw b l' (h' b (by simp))] at e1
      rw [e1] at e
      have e2 := List.append_cancel_left e
      rw [String.toList_injective e1, ih (fun s hs => h s (by simp [hs])) (fun s hs => h' s (by simp [hs])) e2]

theorem pathJoin_inj {a b b' : String} (hb : b.toList.head? = b'.toList.head?) (h : pathJoin a b = pathJoin a b') : b = b' := by
  unfold pathJoin at h
  rw [hb] at h
  have e := congrArg String.toList h
  apply String.toList_injective
  split at e
  · exact e
  · split at e <;> simpa [String.toList_append] using e

/-- C58: different schemes give different names, when scheme names have no hyphen and everything else is the same. -/
theorem C58_distinct {l l' : List String} (h : ∀ s ∈ l, '-' ∉ s.toList) (h' : ∀ s ∈ l', '-' ∉ s.toList)
    (problem graph fmt : String) (N q : Option ℤ) (add : Option String)
    (e : genFigFilename problem graph l fmt N q add = genFigFilename problem graph l' fmt N q add) : l.Perm l' := by
  have p := List.mergeSort_perm l (fun a b => decide (a ≤ b))
  have p' := List.mergeSort_perm l' (fun a b => decide (a ≤ b))
  suffices hs : l.mergeSort (fun a b => decide (a ≤ b)) = l'.mergeSort (fun a b => decide (a ≤ b)) by
    rw [hs] at p
    exact p.symm.trans p'
  have hm : ∀ s ∈ l.mergeSort (fun a b => decide (a ≤ b)), '-' ∉ s.toList := fun s hs => h s (p.mem_iff.1 hs)
  have hm' : ∀ s ∈ l'.mergeSort (fun a b => decide (a ≤ b)), '-' ∉ s.toList := fun s hs => h' s (p'.mem_iff.1 hs)
  unfold genFigFilename at e
  generalize l.mergeSort (fun a b => decide (a ≤ b)) = m at *
  generalize l'.mergeSort (fun a b => decide (a ≤ b)) = m' at *
  apply names_inj hm hm'
  have hT : (figHead problem graph N q).toList ≠ [] := by
    unfold figHead
    cases N <;> cases q <;> simp [String.toList_append]
  obtain ⟨sfx, hg⟩ : ∃ sfx : List Char, ∀ x : String, (figTail add fmt x).toList = x.toList ++ sfx := by
    cases add with
    | none =>
      refine ⟨".".toList ++ fmt.toList, fun x => ?_⟩
      simp only [figTail, String.toList_append, List.append_assoc]
    | some a =>
      refine ⟨"--".toList ++ (a.toList ++ (".".toList ++ fmt.toList)), fun x => ?_⟩
      simp only [figTail, String.toList_append, List.append_assoc]
  have e1 := congrArg String.toList (pathJoin_inj (by
    obtain ⟨c, cs, hc⟩ := List.exists_cons_of_ne_nil hT
    rw [hg, hg, foldl_names, foldl_names, hc]
    rfl) e)
  rw [hg, hg, foldl_names, foldl_names] at e1
  exact List.append_cancel_left (List.append_cancel_right e1)

private theorem digits_split {a b : ℕ} {x y : List Char} (hx : ∀ c ∈ x.head?, c.isDigit = false) (hy : ∀ c ∈ y.head?, c.isDigit = false)
    (e : Nat.toDigits 10 a ++ x = Nat.toDigits 10 b ++ y) : a = b ∧ x = y := by
  have tw : ∀ (n : ℕ) (z : List Char), (∀ c ∈ z.head?, c.isDigit = false) → (Nat.toDigits 10 n ++ z).takeWhile Char.isDigit = Nat.toDigits 10 n := by
    intro n z hz
    rw [List.takeWhile_append_of_pos fun c hc => Nat.isDigit_of_mem_toDigits (by omega) (by omega) hc]
    cases z with
    | nil => simp
    | cons c z => simp [hz c (by simp)]
  have e1 := congrArg (List.takeWhile Char.isDigit) e
  rw [tw a x hx, tw b y hy] at e1
  have h : a = b := by
    refine Nat.repr_injective ?_
    rw [Nat.repr, Nat.repr, e1]
  subst h
  exact ⟨rfl, List.append_cancel_left e⟩

private theorem int_digits (n : ℕ) : (toString (n : ℤ)).toList = Nat.toDigits 10 n := by
  show (Nat.repr n).toList = _
  simp [Nat.repr]

private theorem head_split {problem graph : String} {N N' q q' : Option ℕ} {x y : List Char} (hx : ∀ c ∈ x.head?, c.isDigit = false) (hy : ∀ c ∈ y.head?, c.isDigit = false)
    (e : (figHead problem graph (N.map Int.ofNat) (q.map Int.ofNat)).toList ++ x = (figHead problem graph (N'.map Int.ofNat) (q'.map Int.ofNat)).toList ++ y) :
    N = N' ∧ q = q' ∧ x = y := by
  have hn : ∀ {N N' : Option ℕ}, (match N with | none => "_vs_N".toList | some n => "_N".toList ++ Nat.toDigits 10 n) ++ x =
      (match N' with | none => "_vs_N".toList | some n => "_N".toList ++ Nat.toDigits 10 n) ++ y → N = N' ∧ x = y := by
    intro N N' e
    cases N with
    | none =>
      cases N' with
      | none => exact ⟨rfl, List.append_cancel_left e⟩
      | some n' => simp at e
    | some n =>
      cases N' with
      | none => simp at e
      | some n' =>
        simp only [List.append_assoc] at e
        obtain ⟨h1, h2⟩ := digits_split hx hy (List.append_cancel_left e)
        exact ⟨by rw [h1], h2⟩
  have hh : ∀ N q : Option ℕ, (figHead problem graph (N.map Int.ofNat) (q.map Int.ofNat)).toList =
      problem.toList ++ ("_".toList ++ (graph.toList ++ ((match q with | none => [] | some q => "_q_".toList ++ Nat.toDigits 10 (q + 1)) ++
        (match N with | none => "_vs_N".toList | some n => "_N".toList ++ Nat.toDigits 10 n)))) := by
    intro N q
    have h1 : ∀ q : ℕ, (toString (Int.ofNat q + 1)).toList = Nat.toDigits 10 (q + 1) := fun q => int_digits (q + 1)
    have h2 : ∀ n : ℕ, (toString (Int.ofNat n)).toList = Nat.toDigits 10 n := int_digits
    unfold figHead
    cases N <;> cases q <;> simp only [Option.map_none, Option.map_some, String.toList_append, h1, h2, List.append_assoc, List.nil_append]
  rw [hh, hh] at e
  simp only [List.append_assoc] at e
  have e1 := List.append_cancel_left (List.append_cancel_left (List.append_cancel_left e))
  cases q with
  | none =>
    cases q' with
    | none =>
      obtain ⟨h1, h2⟩ := hn e1
      exact ⟨h1, rfl, h2⟩
    | some q' => cases N <;> simp at e1
  | some q =>
    cases q' with
    | none => cases N' <;> simp at e1
    | some q' =>
      simp only [List.append_assoc] at e1
      obtain ⟨h1, h2⟩ := digits_split (by cases N <;> simp) (by cases N' <;> simp) (List.append_cancel_left e1)
      obtain ⟨h3, h4⟩ := hn h2
      exact ⟨h3, by rw [Nat.succ_injective h1], h4⟩

/-- C58: figures for different numbers of points, for different coordinates or for different schemes get different names, for the same problem, graph, addition and format. -/
theorem C58_numbers {l l' : List String} (h : ∀ s ∈ l, '-' ∉ s.toList) (h' : ∀ s ∈ l', '-' ∉ s.toList)
    (problem graph fmt : String) (N N' q q' : Option ℕ) (add : Option String)
    (e : genFigFilename problem graph l fmt (N.map Int.ofNat) (q.map Int.ofNat) add = genFigFilename problem graph l' fmt (N'.map Int.ofNat) (q'.map Int.ofNat) add) :
    N = N' ∧ q = q' ∧ l.Perm l' := by
  suffices hN : N = N' ∧ q = q' by
    obtain ⟨rfl, rfl⟩ := hN
    exact ⟨rfl, rfl, C58_distinct h h' _ _ _ _ _ _ e⟩
  unfold genFigFilename at e
  generalize l.mergeSort (fun a b => decide (a ≤ b)) = m at *
  generalize l'.mergeSort (fun a b => decide (a ≤ b)) = m' at *
  obtain ⟨sfx, hs0, hs, hg⟩ : ∃ sfx : List Char, sfx ≠ [] ∧ (∀ c ∈ sfx.head?, c.isDigit = false) ∧ ∀ x : String, (figTail add fmt x).toList = x.toList ++ sfx := by
    cases add with
    | none =>
      refine ⟨".".toList ++ fmt.toList, by simp, by simp, fun x => ?_⟩
      simp only [figTail, String.toList_append, List.append_assoc]
    | some a =>
      refine ⟨"--".toList ++ (a.toList ++ (".".toList ++ fmt.toList)), by simp, by simp, fun x => ?_⟩
      simp only [figTail, String.toList_append, List.append_assoc]
  have hd : ∀ m : List String, ∀ c ∈ ((m.map fun s => '-' :: '-' :: s.toList).flatten ++ sfx).head?, c.isDigit = false := by
    intro m
    cases m with
    | nil => simpa using hs
    | cons s m => simp
  have hp : ∀ N q : Option ℤ, ∃ t, (figHead problem graph N q).toList = (problem.toList ++ '_' :: t) := by
    intro N q
    unfold figHead
    cases N <;> cases q <;> simp [String.toList_append]
  have e1 := congrArg String.toList (pathJoin_inj (by
    obtain ⟨t, ht⟩ := hp (N.map Int.ofNat) (q.map Int.ofNat)
    obtain ⟨t', ht'⟩ := hp (N'.map Int.ofNat) (q'.map Int.ofNat)
    rw [hg, hg, foldl_names, foldl_names, ht, ht']
    cases problem.toList <;> rfl) e)
  rw [hg, hg, foldl_names, foldl_names, List.append_assoc, List.append_assoc] at e1
  obtain ⟨h1, h2, _⟩ := head_split (hd m) (hd m') e1
  exact ⟨h1, h2⟩

/-- C58 does not extend to the addition, which is written as one more scheme: the two names are equal. -/
theorem C58_add_refuted (problem graph fmt : String) (N q : Option ℤ) :
    genFigFilename problem graph ["hs"] fmt N q (some "trapz") = genFigFilename problem graph ["hs", "trapz"] fmt N q none := by
  have h1 : ["hs"].mergeSort (fun a b => decide (a ≤ b)) = ["hs"] := by simp
  have h2 : ["hs", "trapz"].mergeSort (fun a b => decide (a ≤ b)) = ["hs", "trapz"] := by
    apply List.mergeSort_of_pairwise
    simp
  unfold genFigFilename
  rw [h1, h2]
  rfl

/-- C58 does not extend to different names of graphs: one can end like the number of a coordinate. -/
theorem C58_graph_refuted (problem fmt : String) (l : List String) (N : Option ℤ) (add : Option String) :
    genFigFilename problem "g" l fmt N (some 0) add = genFigFilename problem "g_q_1" l fmt N none add := by
  have h : figHead problem "g" N (some 0) = figHead problem "g_q_1" N none := by
    apply String.toList_injective
    unfold figHead
    cases N <;> simp [String.toList_append] <;> rfl
  unfold genFigFilename
  rw [h]

/-- Order does not matter, schemes do. -/
example : genFigFilename "p" "g" ["trapz", "hs"] "pdf" none none none = genFigFilename "p" "g" ["hs", "trapz"] "pdf" none none none :=
  C58_order (List.Perm.swap _ _ _) _ _ _ _ _ _

example : ∀ s ∈ ["trapz", "hs_mod"], '-' ∉ s.toList := by decide

/-- The hypotheses of `C58_numbers` hold: twenty points of the first coordinate and of the second have different files. -/
example : genFigFilename "p" "g" ["trapz"] "pdf" (some 20) (some 0) none ≠ genFigFilename "p" "g" ["trapz"] "pdf" (some 20) (some 1) none := fun e =>
  absurd (C58_numbers (l := ["trapz"]) (l' := ["trapz"]) (by decide) (by decide) "p" "g" "pdf" (some 20) (some 20) (some 0) (some 1) none e).2.1 (by decide)

end Chords.NumTools.Props
