import Verif.Model.TryArray
import Mathlib.Tactic.Linarith
import Mathlib.Tactic.NormNum

/-! # Functions of single samples on tables: C148 -/

namespace Chords.Props
open ArrayProgs TryArray

/-! ### Specification -/

/-- A table with `n` rows of `w` entries. -/
def Tab (c : Cell) (n w : ℕ) (f : ℕ → ℕ → ℝ) : Prop := c.two = true ∧ c.rows = n ∧ c.cols = w ∧ ∀ i < n, ∀ j < w, c.val i j = f i j

/-- An array with one axis. -/
def Line (c : Cell) (w : ℕ) (f : ℕ → ℝ) : Prop := c.two = false ∧ c.rows = 1 ∧ c.cols = w ∧ ∀ j < w, c.val 0 j = f j

/-- The function of the user computes `g`, which depends on the `w` coordinates and velocities and `m` controls, on single samples. -/
def PerSample (F : UserF) (w m : ℕ) (g : (ℕ → ℝ) → (ℕ → ℝ) → (ℕ → ℝ) → ℕ → ℝ) : Prop :=
  ∀ a b c X Y Z, Line a w X → Line b w Y → Line c m Z → ∃ o, F (.arr a) (.arr b) (.arr c) = .ok (.arr o) ∧ Line o w (g X Y Z)

variable {F : UserF} {n w m : ℕ} {g : (ℕ → ℝ) → (ℕ → ℝ) → (ℕ → ℝ) → ℕ → ℝ} {q v u d : Cell} {Q V U D : ℕ → ℕ → ℝ}

/-! ### Lemmas -/

theorem tab_item {c : Cell} {f : ℕ → ℕ → ℝ} (h : Tab c n w f) {i : ℕ} (hi : i < n) :
    ∃ o, (Val.arr c).item i = .ok (.arr o) ∧ Line o w (f i) :=
  ⟨⟨false, 1, c.cols, c.int, fun _ j => c.val i j⟩, by simp only [Val.item, h.1, if_true]; rw [if_pos (h.2.1 ▸ hi)], rfl, rfl, h.2.2.1, fun j hj => h.2.2.2 i hi j hj⟩

/-- What the loop appends for a sample. -/
theorem sample_tab (hF : PerSample F w m g) (hq : Tab q n w Q) (hv : Tab v n w V) (hu : Tab u n m U) {i : ℕ} (hi : i < n) :
    ∃ o, sample F (.arr q) (.arr v) (.arr u) i = .ok ((Val.arr o).squeeze) ∧ Line o w (g (Q i) (V i) (U i)) := by
  obtain ⟨a, ea, ha⟩ := tab_item hq hi
  obtain ⟨b, eb, hb⟩ := tab_item hv hi
  obtain ⟨c, ec, hc⟩ := tab_item hu hi
  obtain ⟨o, eo, ho⟩ := hF a b c _ _ _ ha hb hc
  exact ⟨o, by simp only [sample, bind, Except.bind, ea, eb, ec, eo, pure, Except.pure], ho⟩

theorem mapM_range {f : ℕ → Except TErr Val} : ∀ (l : List ℕ) {h : ℕ → Val}, (∀ i ∈ l, f i = .ok (h i)) → l.mapM f = .ok (l.map h)
  | [], _, _ => rfl
  | i :: l, h, hl => by
    rw [List.mapM_cons, hl i (List.mem_cons_self ..)]
    have := mapM_range l fun j hj => hl j (List.mem_cons_of_mem _ hj)
    simp only [bind, Except.bind, this, pure, Except.pure, List.map_cons]

theorem nums_map (l : List ℕ) (f : ℕ → ℝ) : nums (l.map fun i => .num (f i)) = some (l.map f) := by
  induction l with
  | nil => rfl
  | cons i l ih => simp [nums, ih]

theorem vecs_map (l : List ℕ) (f : ℕ → Cell) (hf : ∀ i ∈ l, (f i).two = false ∧ (f i).cols = w) : vecs w (l.map fun i => .arr (f i)) = some (l.map f) := by
  induction l with
  | nil => rfl
  | cons i l ih =>
    rw [List.map_cons, vecs, if_pos (hf i (List.mem_cons_self ..)), ih fun j hj => hf j (List.mem_cons_of_mem _ hj)]
    rfl

/-- The samples of the loop. -/
theorem samplesOf (hF : PerSample F w m g) (hq : Tab q n w Q) (hv : Tab v n w V) (hu : Tab u n m U) :
    ∃ o : ℕ → Cell, (List.range n).mapM (sample F (.arr q) (.arr v) (.arr u)) = .ok ((List.range n).map fun i => (Val.arr (o i)).squeeze) ∧
      ∀ i < n, Line (o i) w (g (Q i) (V i) (U i)) := by
  have h : ∀ i, ∃ o, i < n → sample F (.arr q) (.arr v) (.arr u) i = .ok ((Val.arr o).squeeze) ∧ Line o w (g (Q i) (V i) (U i)) := by
    intro i
    by_cases hi : i < n
    · obtain ⟨o, ho⟩ := sample_tab hF hq hv hu hi
      exact ⟨o, fun _ => ho⟩
    · exact ⟨q, fun h => absurd h hi⟩
  choose o ho using h
  exact ⟨o, mapM_range _ fun i hi => (ho i (List.mem_range.1 hi)).1, fun i hi => (ho i hi).2⟩

theorem size_tab {c : Cell} {f : ℕ → ℕ → ℝ} (h : Tab c n w f) : (Val.arr c).size = .ok n := by
  simp [Val.size, h.1, h.2.1]

/-! ### C148 -/

/-- C148: a function that raises on tables is applied to each sample. -/
theorem C148_rows (hw : 2 ≤ w) (hn : 0 < n) (hF : PerSample F w m g) (hq : Tab q n w Q) (hv : Tab v n w V) (hu : Tab u n m U)
    {e : TErr} (he : F (.arr q) (.arr v) (.arr u) = .error e) :
    ∃ out, tryF F (.arr q) (.arr v) (.arr u) = .ok (.arr out) ∧ Tab out n w fun i => g (Q i) (V i) (U i) := by
  obtain ⟨o, eo, ho⟩ := samplesOf hF hq hv hu
  have hs : ∀ i ∈ List.range n, (Val.arr (o i)).squeeze = .arr (o i) := by
    intro i hi
    have := ho i (List.mem_range.1 hi)
    simp only [Val.squeeze, this.1, this.2.2.1]
    rw [if_neg (by simp), if_neg (by omega)]
  rw [List.map_congr_left hs] at eo
  have hv' := vecs_map (w := w) (List.range n) o fun i hi => ⟨(ho i (List.mem_range.1 hi)).1, (ho i (List.mem_range.1 hi)).2.2.1⟩
  obtain ⟨k, rfl⟩ : ∃ k, n = k + 1 := ⟨n - 1, by omega⟩
  have h0 := ho 0 (by omega)
  have hl : (List.range (k + 1)).map (fun i => Val.arr (o i)) = .arr (o 0) :: (List.range k).map fun i => Val.arr (o (i + 1)) := by
    rw [List.range_succ_eq_map]
    simp [List.map_map, Function.comp_def]
  have hf : fromList ((List.range (k + 1)).map fun i => Val.arr (o i)) = .ok (.arr ⟨true, ((List.range (k + 1)).map o).length, w, false,
      fun i j => ((((List.range (k + 1)).map o)[i]?).map fun d => d.val 0 j).getD 0⟩) := by
    rw [hl] at hv' ⊢
    have h2 : (o 0).two = false := h0.1
    have h3 : (o 0).cols = w := h0.2.2.1
    unfold fromList
    simp only [nums, h2, h3, hv', Bool.false_eq_true, if_false]
  refine ⟨⟨true, ((List.range (k + 1)).map o).length, w, false, fun i j => ((((List.range (k + 1)).map o)[i]?).map fun d => d.val 0 j).getD 0⟩, ?_, rfl, ?_, rfl, ?_⟩
  · rw [tryF, he]
    simp only [size_tab hq, bind, Except.bind, eo]
    exact hf
  · simp
  · intro i hi j hj
    simp [hi, (ho i hi).2.2.2 j hj]

theorem residual_tab {out : Cell} {G : ℕ → ℕ → ℝ} (h : tryF F (.arr q) (.arr v) (.arr u) = .ok (.arr out)) (hout : Tab out n w G) (hd : Tab d n w D) :
    ∃ r, residual F d (.arr q) (.arr v) (.arr u) = .ok r ∧ Tab r n w fun i j => D i j - G i j := by
  refine ⟨⟨true, n, w, false, fun i j => d.get i j - out.get i j⟩, ?_, rfl, rfl, rfl, fun i hi j hj => ?_⟩
  · simp only [residual, h, bind, Except.bind, bop, sizes, axis, hd.2.1, hd.2.2.1, hout.2.1, hout.2.2.1, if_true, hd.1, hout.1, pure, Except.pure, Bool.or_self]
  · dsimp only [Cell.get]
    rw [hd.2.1, hd.2.2.1, hout.2.1, hout.2.2.1]
    have h1 : (if n = 1 then 0 else i) = i := by split_ifs <;> omega
    have h2 : (if w = 1 then 0 else j) = j := by split_ifs <;> omega
    rw [h1, h2, hd.2.2.2 i hi j hj, hout.2.2.2 i hi j hj]

/-- C148: a function that computes tables is called once. -/
theorem C148_arrays {out : Cell} (hF : F (.arr q) (.arr v) (.arr u) = .ok (.arr out)) (hout : Tab out n w fun i => g (Q i) (V i) (U i)) (hd : Tab d n w D) :
    ∃ r, residual F d (.arr q) (.arr v) (.arr u) = .ok r ∧ Tab r n w fun i j => D i j - g (Q i) (V i) (U i) j :=
  residual_tab (by rw [tryF, hF]) hout hd

/-- C148: the dynamic error of a function of single samples with at least two coordinates that raises on tables. -/
theorem C148_error (hw : 2 ≤ w) (hn : 0 < n) (hF : PerSample F w m g) (hq : Tab q n w Q) (hv : Tab v n w V) (hu : Tab u n m U) (hd : Tab d n w D)
    {e : TErr} (he : F (.arr q) (.arr v) (.arr u) = .error e) :
    ∃ r, residual F d (.arr q) (.arr v) (.arr u) = .ok r ∧ Tab r n w fun i j => D i j - g (Q i) (V i) (U i) j := by
  obtain ⟨out, h, hout⟩ := C148_rows hw hn hF hq hv hu he
  exact residual_tab h hout hd

/-- C148 is false of one coordinate: whatever the function, if it raises on tables, the error is not a column but a square table with the acceleration of each
sample in a column. -/
theorem C148_one_refuted (hn : 2 ≤ n) (hF : PerSample F 1 m g) (hq : Tab q n 1 Q) (hv : Tab v n 1 V) (hu : Tab u n m U) (hd : Tab d n 1 D)
    {e : TErr} (he : F (.arr q) (.arr v) (.arr u) = .error e) :
    ∃ r, residual F d (.arr q) (.arr v) (.arr u) = .ok r ∧ Tab r n n fun i j => D i 0 - g (Q j) (V j) (U j) 0 := by
  obtain ⟨o, eo, ho⟩ := samplesOf hF hq hv hu
  have hs : ∀ i ∈ List.range n, (Val.arr (o i)).squeeze = .num ((o i).val 0 0) := by
    intro i hi
    have := ho i (List.mem_range.1 hi)
    simp [Val.squeeze, this.1, this.2.2.1]
  rw [List.map_congr_left hs] at eo
  have hf : fromList ((List.range n).map fun i => Val.num ((o i).val 0 0)) =
      .ok (.arr ⟨false, 1, ((List.range n).map fun i => (o i).val 0 0).length, false, fun _ j => ((List.range n).map fun i => (o i).val 0 0).getD j 0⟩) := by
    unfold fromList
    rw [nums_map]
  have ht : tryF F (.arr q) (.arr v) (.arr u) =
      .ok (.arr ⟨false, 1, ((List.range n).map fun i => (o i).val 0 0).length, false, fun _ j => ((List.range n).map fun i => (o i).val 0 0).getD j 0⟩) := by
    rw [tryF, he]
    simp only [size_tab hq, bind, Except.bind, eo]
    exact hf
  have hn1 : n ≠ 1 := by omega
  refine ⟨⟨true, n, n, false, fun i j => d.get i j - ((List.range n).map fun i => (o i).val 0 0).getD j 0⟩, ?_, rfl, rfl, rfl, fun i hi j hj => ?_⟩
  · simp only [residual, ht, bind, Except.bind, bop, sizes, axis, hd.2.1, hd.2.2.1, if_neg hn1, List.length_map, List.length_range, if_true, if_neg hn1.symm, hd.1,
      pure, Except.pure, Bool.true_or, Cell.get]
  · dsimp only [Cell.get]
    rw [hd.2.1, hd.2.2.1, if_neg hn1, if_pos rfl, hd.2.2.2 i hi 0 (by omega)]
    simp [hj, (ho j hj).2.2.2 0 (by omega)]

/-- The function of a mass with a force and a spring, `[u[0] - q[0]]`. -/
def springF : UserF := fun q _ u => do
  let a ← u.item 0
  let b ← q.item 0
  match a, b with
  | .num x, .num y => .ok (.arr ⟨false, 1, 1, false, fun _ _ => x - y⟩)
  | .arr x, .arr y => match bop .numpy (· - ·) x y with
    | .ok c => .ok (.arr { c with two := true })
    | .error _ => .error .own
  | _, _ => .error .own

theorem springF_sample : PerSample springF 1 1 fun X _ Z _ => Z 0 - X 0 := by
  intro a b c X Y Z ha hb hc
  refine ⟨⟨false, 1, 1, false, fun _ _ => c.val 0 0 - a.val 0 0⟩, ?_, rfl, rfl, rfl, fun j hj => ?_⟩
  · simp [springF, Val.item, ha.1, hc.1, ha.2.2.1, hc.2.2.1, bind, Except.bind]
  · dsimp only
    rw [ha.2.2.2 0 (by omega), hc.2.2.2 0 (by omega)]

/-- C148 is false of functions of single samples that do not raise on tables: `[u[0] - q[0]]` compares every sample with the first one. -/
theorem C148_first_refuted (hn : 2 ≤ n) (hq : Tab q n 1 Q) (hv : Tab v n 1 V) (hu : Tab u n 1 U) (hd : Tab d n 1 D) :
    PerSample springF 1 1 (fun X _ Z _ => Z 0 - X 0) ∧
      ∃ r, residual springF d (.arr q) (.arr v) (.arr u) = .ok r ∧ Tab r n 1 fun i _ => D i 0 - (U 0 0 - Q 0 0) := by
  refine ⟨springF_sample, ?_⟩
  have ht : tryF springF (.arr q) (.arr v) (.arr u) = .ok (.arr ⟨true, 1, 1, false, fun _ _ => u.val 0 0 - q.val 0 0⟩) := by
    simp only [tryF, springF, Val.item, hq.1, hu.1, hq.2.1, hu.2.1, hq.2.2.1, hu.2.2.1, if_true, if_pos (show 0 < n by omega), bind, Except.bind, bop, sizes, axis, pure,
      Except.pure, Cell.get]
  have hn1 : n ≠ 1 := by omega
  refine ⟨⟨true, n, 1, false, fun i j => d.get i j - (u.val 0 0 - q.val 0 0)⟩, ?_, rfl, rfl, rfl, fun i hi j hj => ?_⟩
  · simp only [residual, ht, bind, Except.bind, bop, sizes, axis, hd.2.1, hd.2.2.1, if_neg hn1, if_true, hd.1, pure, Except.pure, Bool.true_or, Cell.get]
  · dsimp only [Cell.get]
    rw [hd.2.1, hd.2.2.1, if_neg hn1, if_pos rfl, hd.2.2.2 i hi 0 (by omega), hq.2.2.2 0 (by omega) 0 (by omega), hu.2.2.2 0 (by omega) 0 (by omega)]

/-- A function of single samples that raises on tables: `u[0] - q` with a test of the number of axes. -/
def oneF : UserF
  | .arr a, _, .arr c => if a.two then .error .own else .ok (.arr ⟨false, 1, a.cols, false, fun _ j => c.val 0 0 - a.val 0 j⟩)
  | _, _, _ => .error .own

/-- The hypotheses of C148_rows, C148_error and C148_one_refuted are met, for any numbers of coordinates and samples. -/
example (w n : ℕ) : PerSample oneF w 1 (fun X _ Z j => Z 0 - X j) ∧
    ∃ q u : Cell, Tab q n w (fun i j => i + j) ∧ Tab u n 1 (fun i _ => i) ∧ oneF (.arr q) (.arr q) (.arr u) = .error .own := by
  refine ⟨?_, ⟨true, n, w, false, fun i j => i + j⟩, ⟨true, n, 1, false, fun i _ => i⟩, ⟨rfl, rfl, rfl, fun _ _ _ _ => rfl⟩, ⟨rfl, rfl, rfl, fun _ _ _ _ => rfl⟩, rfl⟩
  intro a b c X Y Z ha hb hc
  refine ⟨⟨false, 1, a.cols, false, fun _ j => c.val 0 0 - a.val 0 j⟩, by simp [oneF, ha.1], rfl, rfl, ha.2.2.1, fun j hj => ?_⟩
  dsimp only
  rw [ha.2.2.2 j hj, hc.2.2.2 0 (by omega)]

end Chords.Props
