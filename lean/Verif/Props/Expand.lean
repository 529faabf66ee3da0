import Verif.Lemmas.Expand
import Mathlib.Data.Fin.VecNotation

/-! # C13, C76, C77, C78: changing the form of a dynamics function

A state of differential order `M` with `n` coordinates is given as `M` blocks of `n` entries, `Blocks n M bs`; the array
that the code handles is their concatenation `bs.flatten`. -/

namespace Chords.Expand

variable {U : Type}

/-! ### C13 -/

/-- C13, numpy, order 2: the expanded function lists the velocities and then the accelerations. A number returned by
the user's function counts as one acceleration. -/
theorem C13_expand_numpy (F : List ℝ → U → Ret) (n : ℕ) (q v : List ℝ) (u : U) (hq : q.length = n) (hv : v.length = n)
    (ha : (F (q ++ v) u).toList.length = n) :
    ∃ f, expandF F "numpy" 2 = .ok f ∧ f (q ++ v) u = .ok (v ++ (F (q ++ v) u).toList) := by
  refine ⟨_, rfl, ?_⟩
  have hd : (q ++ v).drop ((q ++ v).length / 2) = v := by
    rw [List.length_append, hq, hv, show (n + n) / 2 = n by omega, ← hq, List.drop_left]
  simp only [hd, ha, hv, if_true]
  rfl

/-- C13, casadi, any order: the expanded function lists all blocks but the first, and then what the user's function
returns. -/
theorem C13_expand_casadi (F : List ℝ → U → Ret) (n M : ℕ) (hM : 1 ≤ M) (bs : List (List ℝ)) (hb : Blocks n M bs) (u : U) :
    ∃ f, expandF F "casadi" M = .ok f ∧ f bs.flatten u = .ok (bs.tail.flatten ++ (F bs.flatten u).toList) := by
  have h0 : M ≠ 0 := by omega
  refine ⟨_, rfl, ?_⟩
  simp only [h0, if_false, div_len hb hM, drop_first hb]

/-- C13 fails for numpy functions of any order but 2: the expanded function raises `AssertionError` on every state, for
every function that returns one value for each coordinate. -/
theorem C13_numpy_order_refuted (F : List ℝ → U → Ret) (n M : ℕ) (hn : 1 ≤ n) (hM : 1 ≤ M) (h2 : M ≠ 2)
    (bs : List (List ℝ)) (hb : Blocks n M bs) (u : U) (ha : (F bs.flatten u).toList.length = n) :
    ∃ f, expandF F "numpy" M = .ok f ∧ f bs.flatten u = .error .assertion := by
  refine ⟨_, rfl, ?_⟩
  have h0 : M ≠ 0 := by omega
  have hl : ¬ n = bs.tail.flatten.length := by
    rw [flatten_length (tail_blocks hb)]
    intro h
    rcases Nat.lt_or_ge M 2 with h1 | h1
    · have : M = 1 := by omega
      subst this
      simp at h
      omega
    · have h3 : 2 ≤ M - 1 := by omega
      have := Nat.mul_le_mul_right n h3
      omega
  simp only [h0, if_false, div_len hb hM, drop_first hb, ha, hl]

theorem C13_mode_error (F : List ℝ → U → Ret) (E : List ℝ → U → Except EErr (List ℝ)) (mode : String)
    (h : mode ≠ "numpy" ∧ mode ≠ "casadi") (M : ℕ) :
    expandF F mode M = .error .name ∧ reduceF E mode = .error .name := by
  simp [expandF, reduceF, h.1, h.2]

private theorem headD_length {n M : ℕ} {bs : List (List ℝ)} (hb : Blocks n M bs) (hM : 1 ≤ M) :
    (bs.headD []).length = n := by
  cases bs with
  | nil => have := hb.1; simp at this; omega
  | cons b t => exact hb.2 b (by simp)

private theorem flatten_nil {M : ℕ} {bs : List (List ℝ)} (hb : Blocks 0 M bs) : bs.flatten = [] := by
  have := flatten_length hb
  rw [Nat.mul_zero] at this
  exact List.length_eq_zero_iff.1 this

/-- C13, casadi, any order: reducing the expanded function gives back the user's function. -/
theorem C13_round_trip_casadi (F : List ℝ → U → Ret) (n M : ℕ) (hM : 1 ≤ M) (bs : List (List ℝ)) (hb : Blocks n M bs)
    (u : U) (ha : (F bs.flatten u).toList.length = n) :
    ∃ f g, expandF F "casadi" M = .ok f ∧ reduceF f "casadi" = .ok g ∧ g bs u = .ok (F bs.flatten u).toList := by
  obtain ⟨f, hf, hfx⟩ := C13_expand_casadi F n M hM bs hb u
  refine ⟨f, _, hf, rfl, ?_⟩
  simp only [hfx, bind, Except.bind, pure, Except.pure, headD_length hb hM]
  rw [lastPart_append _ _ n ha]
  rintro rfl
  exact flatten_nil (tail_blocks hb)

/-- C13, numpy, order 2: reducing the expanded function gives back the user's function. -/
theorem C13_round_trip_numpy (F : List ℝ → U → Ret) (n : ℕ) (q v : List ℝ) (u : U) (hq : q.length = n)
    (hv : v.length = n) (ha : (F (q ++ v) u).toList.length = n) :
    ∃ f g, expandF F "numpy" 2 = .ok f ∧ reduceF f "numpy" = .ok g ∧ g [q, v] u = .ok (F (q ++ v) u).toList := by
  obtain ⟨f, hf, hfx⟩ := C13_expand_numpy F n q v u hq hv ha
  refine ⟨f, _, hf, rfl, ?_⟩
  simp only [List.flatten_cons, List.flatten_nil, List.append_nil, hfx, bind, Except.bind, pure, Except.pure,
    List.headD_cons, hq]
  rw [lastPart_append _ _ n ha]
  rintro rfl
  exact List.length_eq_zero_iff.1 hv

/-- C13, the other way, order 2, both modes: a state function whose first half is the velocity is recovered by
expanding its reduction. -/
theorem C13_expand_reduce (F : List ℝ → U → List ℝ) (G : List (List ℝ) → U → List ℝ) (mode : String)
    (hm : mode = "numpy" ∨ mode = "casadi") (n : ℕ) (q v a : List ℝ) (u : U) (hq : q.length = n)
    (hv : v.length = n) (ha : a.length = n) (hF : F (q ++ v) u = v ++ a)
    (g : List (List ℝ) → U → Except EErr (List ℝ)) (hg : reduceF (fun x u => .ok (F x u)) mode = .ok g)
    (hG : g [q, v] u = .ok (G [q, v] u)) :
    ∃ f, expandG (fun q u => .arr (G q u)) mode 2 = .ok f ∧ f (q ++ v) u = .ok (F (q ++ v) u) := by
  have hb : Blocks n 2 [q, v] := ⟨rfl, by simp [hq, hv]⟩
  have hfl : q ++ v = [q, v].flatten := by simp
  have hgq : G [q, v] u = a := by
    simp only [reduceF, hm, if_true] at hg
    have := Except.ok.inj hg
    rw [← this] at hG
    simp only [← hfl, hF, bind, Except.bind, pure, Except.pure, List.headD_cons, hq] at hG
    rw [← Except.ok.inj hG, lastPart_append v a n ha]
    rintro rfl
    exact List.length_eq_zero_iff.1 hv
  have hp : parts (q ++ v) ((q ++ v).length / 2) 2 = [q, v] := by
    rw [hfl, div_len hb (by norm_num), parts_flatten hb]
  unfold expandG
  rcases hm with rfl | rfl
  · obtain ⟨f, hf, hfx⟩ := C13_expand_numpy (fun x u => Ret.arr (G (parts x (x.length / 2) 2) u)) n q v u hq hv
      (by rw [hp, hgq]; exact ha)
    exact ⟨f, hf, by rw [hfx, hp, hgq, hF]; rfl⟩
  · obtain ⟨f, hf, hfx⟩ := C13_expand_casadi (fun x u => Ret.arr (G (parts x (x.length / 2) 2) u)) n 2 (by norm_num) [q, v]
      hb u
    rw [← hfl] at hfx
    refine ⟨f, hf, ?_⟩
    rw [hfx, hp, hgq, hF]
    simp [Ret.toList]

private theorem expandG_arith {n M : ℕ} (hn : 1 ≤ n) (hM : 1 ≤ M) : M * n / 2 = n ↔ M = 2 ∨ (M = 3 ∧ n = 1) := by
  constructor
  · intro h
    have h1 : 2 * n ≤ M * n := by omega
    have h2 : M * n < 2 * n + 2 := by omega
    have h3 : 2 ≤ M := le_of_mul_le_mul_right h1 hn
    rcases Nat.lt_or_ge M 3 with h4 | h4
    · left; omega
    · right
      have h5 := Nat.mul_le_mul_right n h4
      have hn1 : n = 1 := by omega
      subst hn1
      omega
  · rintro (rfl | ⟨rfl, rfl⟩)
    · omega
    · rfl

/-- C13, `expand_G`, casadi: for functions with as many results as coordinates, the result is right exactly for order 2,
and for order 3 with one coordinate. In the other cases it does not even have the right length. -/
theorem C13_expand_G_casadi (G : List (List ℝ) → U → List ℝ) (n M : ℕ) (hn : 1 ≤ n) (hM : 1 ≤ M) (bs : List (List ℝ))
    (hb : Blocks n M bs) (u : U) (ha : (G bs u).length = n) :
    ∃ f r, expandG (fun q u => .arr (G q u)) "casadi" M = .ok f ∧ f bs.flatten u = .ok r ∧
      r = bs.flatten.drop (M * n / 2) ++ G bs u ∧
      (r = bs.tail.flatten ++ G bs u ↔ M = 2 ∨ (M = 3 ∧ n = 1)) ∧
      (r.length = M * n ↔ M = 2 ∨ (M = 3 ∧ n = 1)) := by
  have hl : bs.flatten.length = M * n := flatten_length hb
  have hpos : 1 * n ≤ M * n := Nat.mul_le_mul_right n hM
  refine ⟨_, bs.flatten.drop (M * n / 2) ++ G bs u, rfl, ?_, rfl, ?_, ?_⟩
  · simp only [Ret.toList, Nat.mul_div_cancel_left n hM, parts_flatten hb, hl, show (2 : ℕ) ≠ 0 by norm_num, if_false]
  · rw [← expandG_arith hn hM]
    constructor
    · intro h
      have := congrArg List.length h
      simp only [List.length_append, List.length_drop, hl, flatten_length (tail_blocks hb)] at this
      have hs : (M - 1) * n = M * n - n := by rw [Nat.sub_mul, Nat.one_mul]
      omega
    · intro h
      rw [h, drop_first hb]
  · rw [← expandG_arith hn hM, List.length_append, List.length_drop, hl, ha]
    omega

/-- C13, `expand_G`, numpy: right for order 2, `AssertionError` in all other cases but one. -/
theorem C13_expand_G_numpy (G : List (List ℝ) → U → List ℝ) (n M : ℕ) (hn : 1 ≤ n) (hM : 1 ≤ M) (bs : List (List ℝ))
    (hb : Blocks n M bs) (u : U) (ha : (G bs u).length = n) :
    ∃ f, expandG (fun q u => .arr (G q u)) "numpy" M = .ok f ∧
      (M = 2 → f bs.flatten u = .ok (bs.tail.flatten ++ G bs u)) ∧
      (M ≠ 2 → ¬ (M = 1 ∧ n = 1) → f bs.flatten u = .error .assertion) := by
  have hl : bs.flatten.length = M * n := flatten_length hb
  refine ⟨_, rfl, ?_, ?_⟩
  · rintro rfl
    have hd : bs.flatten.drop (bs.flatten.length / 2) = bs.tail.flatten := by rw [div_len hb hM, drop_first hb]
    simp only [Ret.toList, div_len hb hM, parts_flatten hb, drop_first hb, ha, flatten_length (tail_blocks hb)]
    simp
  · intro h2 h1
    have : ¬ n = M * n - M * n / 2 := by
      intro h
      rcases Nat.lt_or_ge M 2 with h4 | h4
      · have : M = 1 := by omega
        subst this
        have : n ≠ 1 := fun e => h1 ⟨rfl, e⟩
        omega
      · have h5 := Nat.mul_le_mul_right n (show 3 ≤ M by omega)
        omega
    simp only [Ret.toList, Nat.mul_div_cancel_left n hM, parts_flatten hb, hl, List.length_drop, ha, this, if_false,
      show (2 : ℕ) ≠ 0 by norm_num]

/-- The exception in `C13_expand_G_numpy`: a first order problem with one coordinate silently gets a state derivative of
two entries, the first of which is the state itself. -/
theorem C13_expand_G_refuted : ∃ f, expandG (fun q (_ : Unit) => .arr [-((q.headD []).headD 0)]) "numpy" 1 = .ok f ∧
    ∀ x : ℝ, f [x] () = .ok [x, -x] := by
  refine ⟨_, rfl, fun x => ?_⟩
  simp [parts, Ret.toList]

/-- The hypotheses of the theorems above hold of a pendulum-like system and of a third order system. -/
example : ∃ f g, expandF (fun x (u : ℝ) => .num (u - x.headD 0)) "numpy" 2 = .ok f ∧ reduceF f "numpy" = .ok g ∧
    g [[1], [2]] 5 = .ok [5 - 1] :=
  C13_round_trip_numpy (fun x (u : ℝ) => .num (u - x.headD 0)) 1 [1] [2] 5 rfl rfl rfl

example : ∃ f g, expandF (fun x (u : ℝ) => .arr [u, x.headD 0]) "casadi" 3 = .ok f ∧ reduceF f "casadi" = .ok g ∧
    g [[1, 2], [3, 4], [5, 6]] 7 = .ok [7, 1] :=
  C13_round_trip_casadi (fun x (u : ℝ) => .arr [u, x.headD 0]) 2 3 (by norm_num) [[1, 2], [3, 4], [5, 6]]
    ⟨rfl, by simp⟩ 7 rfl

/-! ### C76, C77: raising the order of an implicit function -/

private theorem take_blocks {n M k : ℕ} {bs : List (List ℝ)} (h : Blocks n M bs) (hk : k ≤ M) : Blocks n k (bs.take k) :=
  ⟨by simp [h.1, hk], fun b hb => h.2 b (List.mem_of_mem_take hb)⟩

private theorem getD_eq {n M : ℕ} {bs : List (List ℝ)} (h : Blocks n M bs) (i : ℕ) (hi : i < M) :
    (bs.getD i []).length = n := by
  have : i < bs.length := by rw [h.1]; exact hi
  rw [List.getD_eq_getElem?_getD, List.getElem?_eq_getElem this]
  exact h.2 _ (List.getElem_mem this)

/-- C76: the function of higher order has one entry for each entry of the new state, and it vanishes exactly when the
given function vanishes on the lower blocks and every block from number `old` on is the derivative of the block before
it. -/
theorem C76 (F : List ℝ → List ℝ → U → List ℝ) (n new old : ℕ) (hold : 1 ≤ old) (hno : old ≤ new) (mode : String)
    (hm : mode = "numpy" ∨ mode = "casadi") (bs ds : List (List ℝ)) (hb : Blocks n new bs) (hd : Blocks n new ds) (u : U)
    (hF : (F (bs.take old).flatten (ds.take old).flatten u).length = old * n) :
    ∃ f r, increaseOrder F n new old mode "x" = .ok f ∧ f bs.flatten ds.flatten u = .ok r ∧ r.length = new * n ∧
      (AllZero r ↔ AllZero (F (bs.take old).flatten (ds.take old).flatten u) ∧
        ∀ ii, old ≤ ii → ii < new → bs.getD ii [] = ds.getD (ii - 1) []) := by
  have hnew : 1 ≤ new := by omega
  have h0 : ¬ old = 0 := by omega
  obtain ⟨os, hosb, hos⟩ : ∃ os, Blocks n old os ∧ F (bs.take old).flatten (ds.take old).flatten u = os.flatten := by
    refine ⟨parts (F (bs.take old).flatten (ds.take old).flatten u) n old, ⟨by simp [parts], ?_⟩, ?_⟩
    · intro b hb'
      simp only [parts, List.mem_map, List.mem_range] at hb'
      obtain ⟨i, hi, rfl⟩ := hb'
      rw [List.length_take, List.length_drop, hF]
      have h1 : i + 1 ≤ old := hi
      have h2 := Nat.mul_le_mul_right n h1
      have h3 : (i + 1) * n = n * i + n := by ring
      omega
    · obtain ⟨L, hL⟩ : ∃ L, L = F (bs.take old).flatten (ds.take old).flatten u := ⟨_, rfl⟩
      rw [← hL] at hF ⊢
      clear hL hold hno h0
      induction old generalizing L with
      | zero =>
        rw [Nat.zero_mul] at hF
        simp [parts, List.length_eq_zero_iff.1 hF]
      | succ k ih =>
        have := ih (L.drop n) (by rw [List.length_drop, hF, Nat.succ_mul]; omega)
        simp only [parts, List.range_succ_eq_map, List.map_cons, List.map_map, List.flatten_cons, Nat.mul_zero,
          List.drop_zero]
        conv_lhs => rw [← List.take_append_drop n L, this]
        congr 3
        apply List.map_congr_left
        intro i _
        simp only [Function.comp_apply, List.drop_drop, Nat.succ_eq_add_one]
        rw [show n + n * i = n * (i + 1) by ring]
  have hint : Blocks n (new - old) ((List.range' old (new - old)).map fun ii =>
      sub (bs.getD ii []) (ds.getD (ii - 1) [])) := by
    refine ⟨by simp, ?_⟩
    intro b hb'
    simp only [List.mem_map, List.mem_range'_1] at hb'
    obtain ⟨i, hi, rfl⟩ := hb'
    rw [sub, List.length_zipWith, getD_eq hb i (by omega), getD_eq hd (i - 1) (by omega), Nat.min_self]
  have hlen : bs.flatten.length = ds.flatten.length := by rw [flatten_length hb, flatten_length hd]
  have hdb : getXDivisions bs.flatten new = bs := by
    unfold getXDivisions; rw [div_len hb hnew, parts_flatten hb]
  have hdd : getXDivisions ds.flatten new = ds := by
    unfold getXDivisions; rw [div_len hd hnew, parts_flatten hd]
  have hdo : getXDivisions os.flatten old = os := by
    unfold getXDivisions; rw [div_len hosb hold, parts_flatten hosb]
  have hosn : os ≠ [] := by rintro rfl; have := hosb.1; simp at this; omega
  have hlast : os.drop (os.length - 1) = [os.getLastD []] := by
    conv_lhs => rw [← dropLast_getLastD os [] hosn]
    simp [List.drop_append]
  simp only [increaseOrder, hno, if_true, show ("x" : String) ≠ "q" by decide, if_false]
  refine ⟨_, (os.dropLast ++ ((List.range' old (new - old)).map fun ii =>
      sub (bs.getD ii []) (ds.getD (ii - 1) [])) ++ [os.getLastD []]).flatten, rfl, ?_, ?_, ?_⟩
  · simp only [flatten_length hb, flatten_length hd, if_true, hdb, hdd, hm, h0, if_false, hos, hdo, hlast]
  · have hB : Blocks n new (os.dropLast ++ ((List.range' old (new - old)).map fun ii =>
      sub (bs.getD ii []) (ds.getD (ii - 1) [])) ++ [os.getLastD []]) := by
      refine ⟨?_, ?_⟩
      · simp [hosb.1]; omega
      · intro b hb'
        simp only [List.mem_append, List.mem_singleton] at hb'
        rcases hb' with (h | h) | h
        · exact (dropLast_blocks hosb).2 b h
        · exact hint.2 b h
        · rw [h]; exact getLastD_length hosb hold
    exact flatten_length hB
  · rw [hos, flatten_split hosb hold]
    simp only [List.flatten_append, allZero_append, List.flatten_cons, List.flatten_nil, List.append_nil]
    have : AllZero ((List.range' old (new - old)).map fun ii => sub (bs.getD ii []) (ds.getD (ii - 1) [])).flatten ↔
        ∀ ii, old ≤ ii → ii < new → bs.getD ii [] = ds.getD (ii - 1) [] := by
      rw [allZero_flatten]
      simp only [List.mem_map, List.mem_range'_1, forall_exists_index, and_imp]
      constructor
      · intro h ii h1 h2
        exact (allZero_sub (by rw [getD_eq hb ii h2, getD_eq hd (ii - 1) (by omega)])).1
          (h _ ii h1 (by omega) rfl)
      · rintro h b ii h1 h2 rfl
        exact (allZero_sub (by rw [getD_eq hb ii (by omega), getD_eq hd (ii - 1) (by omega)])).2 (h ii h1 (by omega))
    rw [this]
    tauto

/-- The documentation of `increase_order_implicit_func` gives the new rows as `v' - a`, with the sign of the given rows
`q' - v`; the code computes `a - v'`. Here with one coordinate, from order 2 to order 3, and the function that
returns `(q' - v, v' - u)`. -/
theorem C76_sign_refuted : ∃ f, increaseOrder (fun x xd (u : ℝ) => [xd.getD 0 0 - x.getD 1 0, xd.getD 1 0 - u]) 1 3 2
    "numpy" "x" = .ok f ∧
    ∀ q v a q' v' a' u : ℝ, f [q, v, a] [q', v', a'] u = .ok [q' - v, a - v', v' - u] := by
  refine ⟨_, rfl, fun q v a q' v' a' u => ?_⟩
  simp [getXDivisions, parts, sub, List.range_succ]

/-- Arrays of the wrong length are refused, and so is a lower order. -/
theorem C76_errors (F : List ℝ → List ℝ → U → List ℝ) (n new old : ℕ) (mode : String) :
    (new < old → ∀ s, increaseOrder F n new old mode s = .error .assertion) ∧
    (old ≤ new → ∃ f, increaseOrder F n new old mode "x" = .ok f ∧
      ∀ x xd u, x.length ≠ xd.length ∨ x.length ≠ new * n → f x xd u = .error .assertion) := by
  refine ⟨fun h s => by simp [increaseOrder, Nat.not_le.2 h], fun h => ?_⟩
  simp only [increaseOrder, h, if_true, show ("x" : String) ≠ "q" by decide, if_false]
  refine ⟨_, rfl, fun x xd u hx => ?_⟩
  by_cases h1 : x.length = xd.length
  · have h2 : ¬ xd.length = new * n := by
      rw [← h1]
      rcases hx with h3 | h3
      · exact absurd h1 h3
      · exact h3
    simp only [h1, if_true, h2, if_false]
  · simp only [h1, if_false]

/-- C77 does not hold: with `state_mode = "q"` the function raises for every argument. -/
theorem C77_refuted (F : List ℝ → List ℝ → U → List ℝ) (n new old : ℕ) (mode : String) :
    increaseOrder F n new old mode "q" = .error .unbound ∨ increaseOrder F n new old mode "q" = .error .assertion := by
  by_cases h : old ≤ new
  · left; simp [increaseOrder, h]
  · right; simp [increaseOrder, h]

/-- A motion with constant acceleration `3`, jerk `4` on top of it: the hypotheses of `C76` hold and so do both sides of the
equivalence. -/
example : ∃ f r, increaseOrder (fun x xd (u : ℝ) => [xd.getD 0 0 - x.getD 1 0, xd.getD 1 0 - u]) 1 4 2 "numpy" "x" = .ok f ∧
    f [1, 2, 3, 4] [2, 3, 4, 9] 3 = .ok r ∧ AllZero r := by
  obtain ⟨f, r, h1, h2, -, h3⟩ := C76 (fun x xd (u : ℝ) => [xd.getD 0 0 - x.getD 1 0, xd.getD 1 0 - u]) 1 4 2 (by norm_num)
    (by norm_num) "numpy" (.inl rfl) [[1], [2], [3], [4]] [[2], [3], [4], [9]] ⟨rfl, by simp⟩ ⟨rfl, by simp⟩ 3 rfl
  refine ⟨f, r, h1, by simpa using h2, h3.2 ⟨by simp [AllZero], fun ii h4 h5 => ?_⟩⟩
  have : ii = 2 ∨ ii = 3 := by omega
  rcases this with rfl | rfl <;> rfl

/-! ### C78: the two dynamics residuals of a problem given as a function -/

/-- `x` and `x'` are blocks of a motion: every derivative block but the last is the next state block. -/
def Chain (bs ds : List (List ℝ)) : Prop := ds.dropLast = bs.tail

/-- C78, `g_q_impl`: the residual in terms of the state vanishes exactly when the state is a chain of derivatives and the
residual in terms of the coordinates vanishes. -/
theorem C78_g_q_impl (G : List (List ℝ) → U → List ℝ) (n M : ℕ) (hM : 1 ≤ M) (bs ds : List (List ℝ)) (hb : Blocks n M bs)
    (hd : Blocks n M ds) (u : U) :
    ∃ r s, dynFRestr (.g_q_impl G) n M bs.flatten ds.flatten u = .ok r ∧
      dynGRestr (.g_q_impl G) n M (bs ++ [ds.getLastD []]) u = .ok s ∧ (AllZero r ↔ Chain bs ds ∧ AllZero s) := by
  refine ⟨_, _, rfl, rfl, ?_⟩
  simp only [parts_flatten hb, parts_flatten hd]
  rw [allZero_append, and_comm, allZero_flatten]
  apply and_congr_left'
  simp only [List.mem_map, List.mem_range, forall_exists_index, and_imp, forall_apply_eq_imp_iff₂]
  have key : ∀ i, i < M - 1 → (AllZero (sub (ds.getD i []) (bs.getD (i + 1) [])) ↔ ds.dropLast[i]? = bs.tail[i]?) := by
    intro i hi
    have h1 : i < ds.length := by rw [hd.1]; omega
    have h2 : i + 1 < bs.length := by rw [hb.1]; omega
    rw [allZero_sub (by rw [getD_eq hd i (by omega), getD_eq hb (i + 1) (by omega)])]
    rw [List.getElem?_dropLast, if_pos (by rw [hd.1]; exact hi), List.getElem?_tail]
    simp only [List.getD_eq_getElem?_getD, List.getElem?_eq_getElem h1, List.getElem?_eq_getElem h2, Option.getD_some,
      Option.some.injEq]
  constructor
  · intro h
    apply List.ext_getElem?
    intro i
    by_cases hi : i < M - 1
    · exact (key i hi).1 (h i hi)
    · rw [List.getElem?_eq_none (by simp [hd.1]; omega), List.getElem?_eq_none (by simp [hb.1]; omega)]
  · intro h i hi
    rw [key i hi, show ds.dropLast = bs.tail from h]

private theorem take_append_last {α : Type} (bs : List α) (d : α) (M : ℕ) (h : bs.length = M) :
    (bs ++ [d]).take M = bs := by
  rw [← h, List.take_left']
  rfl

private theorem getD_append_last (bs : List (List ℝ)) (d : List ℝ) (M : ℕ) (h : bs.length = M) :
    (bs ++ [d]).getD M [] = d := by
  rw [List.getD_eq_getElem?_getD, ← h]
  simp

private theorem chain_aux {n M : ℕ} (hM : 1 ≤ M) {bs ds : List (List ℝ)} (hb : Blocks n M bs) (hd : Blocks n M ds)
    (a : List ℝ) :
    AllZero (sub ds.flatten (bs.tail.flatten ++ a)) ↔ Chain bs ds ∧ AllZero (sub (ds.getLastD []) a) := by
  have hl : ds.dropLast.flatten.length = bs.tail.flatten.length := by
    rw [flatten_length (dropLast_blocks hd), flatten_length (tail_blocks hb)]
  rw [flatten_split hd hM, sub_append hl, allZero_append, allZero_sub hl,
    flatten_inj (dropLast_blocks hd).2 (tail_blocks hb).2 (by rw [(dropLast_blocks hd).1, (tail_blocks hb).1])]
  rfl

/-- C78, `f_x`, for a function whose upper blocks are the derivatives: the same statement. -/
theorem C78_f_x (F : List ℝ → U → List ℝ) (A : List (List ℝ) → U → List ℝ) (n M : ℕ) (hM : 1 ≤ M)
    (bs ds : List (List ℝ)) (hb : Blocks n M bs) (hd : Blocks n M ds) (u : U)
    (hF : F bs.flatten u = bs.tail.flatten ++ A bs u) (hA : (A bs u).length = n) :
    ∃ r s, dynFRestr (.f_x F) n M bs.flatten ds.flatten u = .ok r ∧
      dynGRestr (.f_x F) n M (bs ++ [ds.getLastD []]) u = .ok s ∧ s = sub (ds.getLastD []) (A bs u) ∧
      (AllZero r ↔ Chain bs ds ∧ AllZero s) := by
  have hlen : ds.flatten.length = (bs.tail.flatten ++ A bs u).length := by
    rw [flatten_length hd, List.length_append, flatten_length (tail_blocks hb), hA, Nat.sub_mul, Nat.one_mul]
    have := Nat.mul_le_mul_right n hM
    omega
  refine ⟨sub ds.flatten (bs.tail.flatten ++ A bs u), sub (ds.getLastD []) (A bs u), ?_, ?_, rfl, chain_aux hM hb hd _⟩
  · simp only [dynFRestr, hF, casSub_eq hlen]
  · simp only [dynGRestr, reduceF, or_true, if_true, bind, Except.bind, pure, Except.pure,
      take_append_last bs _ M hb.1, getD_append_last bs _ M hb.1, headD_length hb hM, hF]
    rw [lastPart_append _ _ n hA (by rintro rfl; exact flatten_nil (tail_blocks hb)),
      casSub_eq (by rw [getLastD_length hd hM, hA])]

/-- C78, `f_x_impl`, for a function whose upper blocks say that the state is a chain of derivatives. -/
theorem C78_f_x_impl (F : List ℝ → List ℝ → U → List ℝ) (A : List (List ℝ) → List ℝ → U → List ℝ) (n M : ℕ) (hM : 1 ≤ M)
    (hF : ∀ bs ds u, Blocks n M bs → Blocks n M ds →
      F bs.flatten ds.flatten u = sub ds.dropLast.flatten bs.tail.flatten ++ A bs (ds.getLastD []) u)
    (bs ds : List (List ℝ)) (hb : Blocks n M bs) (hd : Blocks n M ds) (u : U)
    (hA : (A bs (ds.getLastD []) u).length = n) :
    ∃ r s, dynFRestr (.f_x_impl F) n M bs.flatten ds.flatten u = .ok r ∧
      dynGRestr (.f_x_impl F) n M (bs ++ [ds.getLastD []]) u = .ok s ∧ s = A bs (ds.getLastD []) u ∧
      (AllZero r ↔ Chain bs ds ∧ AllZero s) := by
  have hl : ds.dropLast.flatten.length = bs.tail.flatten.length := by
    rw [flatten_length (dropLast_blocks hd), flatten_length (tail_blocks hb)]
  have hne : bs ≠ [] := by rintro rfl; have := hb.1; simp at this; omega
  have hd2 : Blocks n M (bs.tail ++ [ds.getLastD []]) := by
    refine ⟨by simp [hb.1]; omega, ?_⟩
    intro b h
    simp only [List.mem_append, List.mem_singleton] at h
    rcases h with h | h
    · exact (tail_blocks hb).2 b h
    · rw [h]; exact getLastD_length hd hM
  refine ⟨_, A bs (ds.getLastD []) u, rfl, ?_, rfl, ?_⟩
  · have h1 : (bs ++ [ds.getLastD []]).drop 1 = bs.tail ++ [ds.getLastD []] := by
      cases bs with
      | nil => exact absurd rfl hne
      | cons b t => rfl
    have h2 : (bs.tail ++ [ds.getLastD []]).getLastD [] = ds.getLastD [] := by
      generalize ds.getLastD [] = d
      cases bs.tail <;> simp [List.getLastD]
    simp only [dynGRestr, take_append_last bs _ M hb.1, h1, hF bs _ u hb hd2, h2]
    rw [lastPart_append _ _ n hA]
    rintro rfl
    rw [flatten_nil (tail_blocks hb)]
    simp [sub]
  · rw [hF bs ds u hb hd, allZero_append, allZero_sub hl,
      flatten_inj (dropLast_blocks hd).2 (tail_blocks hb).2 (by rw [(dropLast_blocks hd).1, (tail_blocks hb).1])]
    rfl

/-- C78, `g_q`: holds for order 2, and for order 3 with one coordinate. -/
theorem C78_g_q_partial (G : List (List ℝ) → U → List ℝ) (n M : ℕ) (hn : 1 ≤ n) (hM : M = 2 ∨ (M = 3 ∧ n = 1))
    (bs ds : List (List ℝ)) (hb : Blocks n M bs) (hd : Blocks n M ds) (u : U) (hG : (G bs u).length = n) :
    ∃ r s, dynFRestr (.g_q G) n M bs.flatten ds.flatten u = .ok r ∧
      dynGRestr (.g_q G) n M (bs ++ [ds.getLastD []]) u = .ok s ∧ s = sub (ds.getLastD []) (G bs u) ∧
      (AllZero r ↔ Chain bs ds ∧ AllZero s) := by
  have hM1 : 1 ≤ M := by omega
  obtain ⟨f, w, hf, hfx, -, hw, -⟩ := C13_expand_G_casadi G n M hn hM1 bs hb u hG
  have hw := hw.2 hM
  subst hw
  have hlen : ds.flatten.length = (bs.tail.flatten ++ G bs u).length := by
    rw [flatten_length hd, List.length_append, flatten_length (tail_blocks hb), hG, Nat.sub_mul, Nat.one_mul]
    have := Nat.mul_le_mul_right n hM1
    omega
  refine ⟨sub ds.flatten (bs.tail.flatten ++ G bs u), sub (ds.getLastD []) (G bs u), ?_, ?_, rfl, chain_aux hM1 hb hd _⟩
  · simp only [dynFRestr, hf, hfx, bind, Except.bind, casSub_eq hlen]
  · simp only [dynGRestr, take_append_last bs _ M hb.1, getD_append_last bs _ M hb.1]
    rw [casSub_eq (by rw [getLastD_length hd hM1, hG])]

/-- C78 does not hold for `g_q` and other orders: with any function, the construction of the residual in terms of the
state fails, since two rows of different lengths are subtracted. -/
theorem C78_g_q_refuted (G : List (List ℝ) → U → List ℝ) (n M : ℕ) (hn : 1 ≤ n) (hM : 1 ≤ M)
    (h2 : ¬ (M = 2 ∨ (M = 3 ∧ n = 1))) (h1 : ¬ (M = 1 ∧ n = 1))
    (bs ds : List (List ℝ)) (hb : Blocks n M bs) (hd : Blocks n M ds) (u : U) (hG : (G bs u).length = n) :
    dynFRestr (.g_q G) n M bs.flatten ds.flatten u = .error .runtime := by
  obtain ⟨f, r, hf, hfx, hr, -, hlen⟩ := C13_expand_G_casadi G n M hn hM bs hb u hG
  have e1 : ¬ ds.flatten.length = r.length := by
    rw [flatten_length hd]
    intro h
    exact h2 (hlen.1 h.symm)
  have e2 : ¬ ds.flatten.length = 1 := by
    rw [flatten_length hd]
    intro h
    exact h1 ⟨Nat.eq_one_of_mul_eq_one_right h, Nat.eq_one_of_mul_eq_one_left h⟩
  have e3 : ¬ r.length = 1 := by
    rw [hr, List.length_append, List.length_drop, flatten_length hb, hG]
    have := Nat.mul_le_mul hM hn
    omega
  simp only [dynFRestr, hf, hfx, bind, Except.bind, casSub, e1, e2, e3, if_false]

/-- The remaining case of `g_q`, order one and one coordinate, is worse: the residual is built, and it demands `x' = x` on
top of the user's equation. Here the equation is `x' = -x`, with the solution `x = 1`, `x' = -1` at some instant. -/
theorem C78_g_q_first_refuted : ∃ (G : List (List ℝ) → Unit → List ℝ) (x x' : ℝ),
    dynGRestr (.g_q G) 1 1 [[x], [x']] () = .ok [0] ∧
    dynFRestr (.g_q G) 1 1 [x] [x'] () = .ok [-2, 0] := by
  refine ⟨fun q _ => [-((q.headD []).headD 0)], 1, -1, ?_, ?_⟩
  · simp [dynGRestr, casSub]
  · simp [dynFRestr, expandG, expandF, parts, Ret.toList, casSub, bind, Except.bind]
    norm_num

/-- An unknown kind of function is refused. -/
theorem C78_unknown (n M : ℕ) (x x' : List ℝ) (qs : List (List ℝ)) (u : U) :
    dynFRestr .unknown n M x x' u = .error .notImplemented ∧ dynGRestr .unknown n M qs u = .error .notImplemented :=
  ⟨rfl, rfl⟩

/-- A third order system of two coordinates meets the hypotheses of `C78_g_q_impl`. -/
example : ∃ r, dynFRestr (.g_q_impl fun q (u : ℝ) => sub (q.getD 3 []) [u, u]) 2 3 [1, 2, 3, 4, 5, 6]
      [3, 4, 5, 6, 7, 7] 7 = .ok r ∧ AllZero r := by
  obtain ⟨r, s, h1, h2, h3⟩ := C78_g_q_impl (fun q (u : ℝ) => sub (q.getD 3 []) [u, u]) 2 3 (by norm_num)
    [[1, 2], [3, 4], [5, 6]] [[3, 4], [5, 6], [7, 7]] ⟨rfl, by simp⟩ ⟨rfl, by simp⟩ 7
  refine ⟨r, by simpa using h1, h3.2 ⟨rfl, ?_⟩⟩
  have := Except.ok.inj h2
  rw [← this]
  simp [sub, AllZero]

/-! ### The other theorems on a case -/

example : ∃ f, expandF (fun x (u : ℝ) => .num (u - x.headD 0)) "numpy" 2 = .ok f ∧ f ([1] ++ [2]) 5 = .ok ([2] ++ [5 - 1]) :=
  C13_expand_numpy (fun x (u : ℝ) => .num (u - x.headD 0)) 1 [1] [2] 5 rfl rfl rfl

example : ∃ f, expandF (fun x (u : ℝ) => .arr [u, x.headD 0]) "casadi" 3 = .ok f ∧ f [1, 2, 3, 4, 5, 6] 7 = .ok [3, 4, 5, 6, 7, 1] :=
  C13_expand_casadi (fun x (u : ℝ) => .arr [u, x.headD 0]) 2 3 (by norm_num) [[1, 2], [3, 4], [5, 6]] ⟨rfl, by simp⟩ 7

example : ∃ f, expandF (fun x (u : ℝ) => .arr [u, x.headD 0]) "numpy" 3 = .ok f ∧ f [1, 2, 3, 4, 5, 6] 7 = .error .assertion :=
  C13_numpy_order_refuted (fun x (u : ℝ) => .arr [u, x.headD 0]) 2 3 (by norm_num) (by norm_num) (by norm_num) [[1, 2], [3, 4], [5, 6]] ⟨rfl, by simp⟩ 7 rfl

example (F : List ℝ → ℝ → Ret) (E : List ℝ → ℝ → Except EErr (List ℝ)) : expandF F "sympy" 2 = .error .name ∧ reduceF E "sympy" = .error .name :=
  C13_mode_error F E "sympy" (by decide) 2

example : ∃ f, expandG (fun q (u : ℝ) => .arr [u - (q.headD []).headD 0]) "numpy" 2 = .ok f ∧ f [1, 2] 5 = .ok [2, 5 - 1] := by
  exact C13_expand_reduce (fun x (u : ℝ) => [x.getD 1 0, u - x.headD 0]) (fun q u => [u - (q.headD []).headD 0]) "numpy" (.inl rfl) 1 [1] [2] [5 - 1] 5 rfl rfl
    rfl rfl _ (if_pos (.inl rfl)) (by simp [bind, Except.bind, lastPart, pure, Except.pure])

example : ∃ f, ∃ r : List ℝ, expandG (fun _ (u : ℝ) => .arr [u]) "casadi" 4 = .ok f ∧ f [1, 2, 3, 4] 5 = .ok r ∧ r = [3, 4, 5] ∧
    (r = [2, 3, 4, 5] ↔ 4 = 2 ∨ (4 = 3 ∧ 1 = 1)) ∧ (r.length = 4 * 1 ↔ 4 = 2 ∨ (4 = 3 ∧ 1 = 1)) :=
  C13_expand_G_casadi (fun _ (u : ℝ) => [u]) 1 4 (by norm_num) (by norm_num) [[1], [2], [3], [4]] ⟨rfl, by simp⟩ 5 rfl

example : ∃ r s, dynFRestr (.f_x fun x (u : ℝ) => [x.getD 1 0, u]) 1 2 [1, 2] [2, 5] 5 = .ok r ∧
    dynGRestr (.f_x fun x (u : ℝ) => [x.getD 1 0, u]) 1 2 [[1], [2], [5]] 5 = .ok s ∧ s = sub [5] [5] ∧ (AllZero r ↔ Chain [[1], [2]] [[2], [5]] ∧ AllZero s) :=
  C78_f_x (fun x (u : ℝ) => [x.getD 1 0, u]) (fun _ u => [u]) 1 2 (by norm_num) [[1], [2]] [[2], [5]] ⟨rfl, by simp⟩ ⟨rfl, by simp⟩ 5 rfl rfl

example : ∃ r s, dynFRestr (.g_q fun _ (u : ℝ) => [u]) 1 2 [1, 2] [2, 5] 5 = .ok r ∧ dynGRestr (.g_q fun _ (u : ℝ) => [u]) 1 2 [[1], [2], [5]] 5 = .ok s ∧
    s = sub [5] [5] ∧ (AllZero r ↔ Chain [[1], [2]] [[2], [5]] ∧ AllZero s) :=
  C78_g_q_partial (fun _ (u : ℝ) => [u]) 1 2 (by norm_num) (.inl rfl) [[1], [2]] [[2], [5]] ⟨rfl, by simp⟩ ⟨rfl, by simp⟩ 5 rfl

example : dynFRestr (.g_q fun _ (u : ℝ) => [u, u]) 2 3 [1, 2, 3, 4, 5, 6] [3, 4, 5, 6, 7, 7] 7 = .error .runtime :=
  C78_g_q_refuted (fun _ (u : ℝ) => [u, u]) 2 3 (by norm_num) (by norm_num) (by norm_num) (by norm_num) [[1, 2], [3, 4], [5, 6]] [[3, 4], [5, 6], [7, 7]]
    ⟨rfl, by simp⟩ ⟨rfl, by simp⟩ 7 rfl

/-- The hypothesis of `C78_f_x_impl` on the shape of the function, for one coordinate and order two: it has to hold at lists of the right lengths only. -/
example : ∃ r s, dynFRestr (.f_x_impl fun x d (u : ℝ) => [d.getD 0 0 - x.getD 1 0, d.getD 1 0 - u]) 1 2 [1, 2] [2, 5] 5 = .ok r ∧
    dynGRestr (.f_x_impl fun x d (u : ℝ) => [d.getD 0 0 - x.getD 1 0, d.getD 1 0 - u]) 1 2 [[1], [2], [5]] 5 = .ok s ∧ s = [5 - 5] ∧
    (AllZero r ↔ Chain [[1], [2]] [[2], [5]] ∧ AllZero s) :=
  C78_f_x_impl (fun x d (u : ℝ) => [d.getD 0 0 - x.getD 1 0, d.getD 1 0 - u]) (fun _ a u => [a.headD 0 - u]) 1 2 (by norm_num)
    (by
      rintro bs ds u ⟨hb, hb'⟩ ⟨hd, hd'⟩
      obtain ⟨b0, b1, rfl⟩ := List.length_eq_two.1 hb
      obtain ⟨d0, d1, rfl⟩ := List.length_eq_two.1 hd
      obtain ⟨x0, rfl⟩ := List.length_eq_one_iff.1 (hb' b0 (by simp))
      obtain ⟨x1, rfl⟩ := List.length_eq_one_iff.1 (hb' b1 (by simp))
      obtain ⟨y0, rfl⟩ := List.length_eq_one_iff.1 (hd' d0 (by simp))
      obtain ⟨y1, rfl⟩ := List.length_eq_one_iff.1 (hd' d1 (by simp))
      simp [sub])
    [[1], [2]] [[2], [5]] ⟨rfl, by simp⟩ ⟨rfl, by simp⟩ 5 rfl

end Chords.Expand
