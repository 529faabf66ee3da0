import Verif.Model.ArrayProgs
import Verif.Model.Schemes
import Mathlib.Tactic.Ring
import Mathlib.Tactic.Linarith
import Mathlib.Tactic.NormNum
import Mathlib.Tactic.FieldSimp

/-! # Restrictions of order M on arrays: C142, C143 -/

namespace Chords.Props
open ArrayProgs

/-! ### Writing -/

theorem cell_ext {a b : Cell} (h1 : a.two = b.two) (h2 : a.rows = b.rows) (h3 : a.cols = b.cols) (h4 : a.int = b.int)
    (h5 : ∀ i j, a.val i j = b.val i j) : a = b := by
  cases a; cases b
  simp only at h1 h2 h3 h4 h5
  subst h1; subst h2; subst h3; subst h4
  congr
  funext i j
  exact h5 i j

/-- Memory where the entries of a region of an array have been set. -/
noncomputable def region (m : Mem) (id : ℕ) (P : ℕ → ℕ → Prop) (v : ℕ → ℕ → ℝ) : Mem :=
  open Classical in
  ⟨Function.update m.cells id { m.cells id with val := fun i j => if P i j then store (m.cells id).int (v i j) else (m.cells id).val i j }, m.next⟩

theorem region_none (m : Mem) (id : ℕ) {P : ℕ → ℕ → Prop} (h : ∀ i j, ¬P i j) (v : ℕ → ℕ → ℝ) : region m id P v = m := by
  simp only [region, h, if_false]
  cases m
  simp

theorem region_region (m : Mem) (id : ℕ) (P Q : ℕ → ℕ → Prop) (v : ℕ → ℕ → ℝ) :
    region (region m id P v) id Q v = region m id (fun i j => P i j ∨ Q i j) v := by
  simp only [region, Function.update_self, Function.update_idem]
  congr 2
  apply cell_ext <;> try rfl
  intro i j
  by_cases hp : P i j <;> by_cases hq : Q i j <;> simp [hp, hq]

theorem region_congr (m : Mem) (id : ℕ) {P Q : ℕ → ℕ → Prop} {v w : ℕ → ℕ → ℝ} (h : ∀ i j, P i j ↔ Q i j)
    (hv : ∀ i j, P i j → v i j = w i j) : region m id P v = region m id Q w := by
  have : P = Q := by funext i j; exact propext (h i j)
  subst this
  simp only [region]
  congr 2
  apply cell_ext <;> try rfl
  intro i j
  by_cases hp : P i j
  · simp [hp, hv i j hp]
  · simp [hp]

theorem foldl_region (id : ℕ) (P : ℕ → ℕ → ℕ → Prop) (v : ℕ → ℕ → ℝ) (f : Mem → ℕ → Mem)
    (hf : ∀ m k, f m k = region m id (P k) v) (n : ℕ) (m : Mem) :
    (List.range n).foldl f m = region m id (fun i j => ∃ k < n, P k i j) v := by
  induction n with
  | zero => simp [region_none m id (P := fun i j => False) (by simp)]
  | succ n ih =>
    rw [List.range_succ, List.foldl_append, ih, List.foldl_cons, List.foldl_nil, hf, region_region]
    refine region_congr _ _ (fun i j => ⟨?_, ?_⟩) fun _ _ _ => rfl
    · rintro (⟨k, hk, h⟩ | h)
      · exact ⟨k, by omega, h⟩
      · exact ⟨n, by omega, h⟩
    · rintro ⟨k, hk, h⟩
      rcases Nat.lt_succ_iff_lt_or_eq.mp hk with hk | rfl
      · exact .inl ⟨k, hk, h⟩
      · exact .inr h

theorem set_one (m : Mem) (r : Ref) (fr : Cell) (k : ℕ) :
    m.set r [k] (fr.at [k]) = region m r.id (fun i j => i = 0 ∧ j = r.lo + k) (fun i j => fr.val i (j - r.lo)) := by
  simp only [Mem.set, region, Cell.at]
  congr 2
  apply cell_ext <;> try rfl
  intro i j
  by_cases h : i = 0 ∧ j = r.lo + k
  · simp [h.1, h.2]
  · simp [h]

theorem set_two (m : Mem) (r : Ref) (fr : Cell) (p k : ℕ) :
    m.set r [p, k] (fr.at [p, k]) = region m r.id (fun i j => i = p ∧ j = r.lo + k) (fun i j => fr.val i (j - r.lo)) := by
  simp only [Mem.set, region, Cell.at]
  congr 2
  apply cell_ext <;> try rfl
  intro i j
  by_cases h : i = p ∧ j = r.lo + k
  · simp [h.1, h.2]
  · simp [h]

theorem paste_region (m : Mem) (r : Ref) (v : Cell) :
    m.paste r v = region m r.id (fun i j => i < (m.cells r.id).rows ∧ r.lo ≤ j ∧ j < r.lo + r.cols) (fun i j => v.val i (j - r.lo)) := by
  simp only [Mem.paste, region]

/-- An array with one axis is a row. -/
def Formed (c : Cell) : Prop := c.two = false → c.rows = 1

/-- `itemequal` sets the columns of an array to another array with the same sizes. -/
theorem itemequal_eq {m : Mem} {r : Ref} {v : Cell} (hf : Formed (m.cells r.id)) (h1 : v.two = (m.cells r.id).two)
    (h2 : v.rows = (m.cells r.id).rows) (h3 : v.cols = r.cols) : itemequal m r v = .ok (m.paste r v) := by
  have hs : v.shape = (m.read r).shape := by rw [Cell.shape, Cell.shape, h1, h2, h3]; rfl
  rw [itemequal, if_pos hs, paste_region]
  congr 1
  cases ht : v.two
  · have hr : (m.cells r.id).rows = 1 := hf (h1.symm.trans ht)
    rw [show v.shape = [v.cols] from by simp [Cell.shape, ht], itemequalLoop,
      foldl_region r.id (fun k i j => i = 0 ∧ j = r.lo + k) (fun i j => v.val i (j - r.lo)) _ fun m k => by
        simpa using set_one m r v k]
    refine region_congr _ _ (fun i j => ⟨?_, ?_⟩) fun _ _ _ => rfl
    · rintro ⟨k, hk, rfl, rfl⟩
      omega
    · rintro ⟨hi, hj, hl⟩
      exact ⟨j - r.lo, by omega, by omega, by omega⟩
  · rw [show v.shape = [v.rows, v.cols] from by simp [Cell.shape, ht], itemequalLoop,
      foldl_region r.id (fun p i j => ∃ k < v.cols, i = p ∧ j = r.lo + k) (fun i j => v.val i (j - r.lo)) _ fun m p => by
        rw [List.nil_append, itemequalLoop]
        exact foldl_region r.id (fun k i j => i = p ∧ j = r.lo + k) _ _ (fun m k => by simpa using set_two m r v p k) _ _]
    · refine region_congr _ _ (fun i j => ⟨?_, ?_⟩) fun _ _ _ => rfl
      · rintro ⟨p, hp, k, hk, rfl, rfl⟩
        omega
      · rintro ⟨hi, hj, hl⟩
        exact ⟨i, by omega, j - r.lo, by omega, rfl, by omega⟩
    · simp

theorem read_congr {m m' : Mem} {r : Ref} (h : m'.cells r.id = m.cells r.id) : m'.read r = m.read r := by
  rw [Mem.read, Mem.read, h]

/-! ### What a part of a program may change -/

/-- Only the entries in a region of memory have changed. -/
structure Kept (R : ℕ → ℕ → Prop) (m m' : Mem) : Prop where
  next : m'.next = m.next
  two : ∀ k, (m'.cells k).two = (m.cells k).two
  rows : ∀ k, (m'.cells k).rows = (m.cells k).rows
  cols : ∀ k, (m'.cells k).cols = (m.cells k).cols
  int : ∀ k, (m'.cells k).int = (m.cells k).int
  val : ∀ k i j, ¬R k j → (m'.cells k).val i j = (m.cells k).val i j

theorem Kept.refl (R : ℕ → ℕ → Prop) (m : Mem) : Kept R m m := ⟨rfl, fun _ => rfl, fun _ => rfl, fun _ => rfl, fun _ => rfl, fun _ _ _ _ => rfl⟩

theorem Kept.trans {R : ℕ → ℕ → Prop} {m1 m2 m3 : Mem} (h : Kept R m1 m2) (g : Kept R m2 m3) : Kept R m1 m3 :=
  ⟨g.next.trans h.next, fun k => (g.two k).trans (h.two k), fun k => (g.rows k).trans (h.rows k), fun k => (g.cols k).trans (h.cols k),
    fun k => (g.int k).trans (h.int k), fun k i j hr => (g.val k i j hr).trans (h.val k i j hr)⟩

theorem Kept.mono {R S : ℕ → ℕ → Prop} {m m' : Mem} (h : Kept R m m') (hs : ∀ k j, R k j → S k j) : Kept S m m' :=
  ⟨h.next, h.two, h.rows, h.cols, h.int, fun k i j hr => h.val k i j fun hk => hr (hs k j hk)⟩

theorem Kept.cells {R : ℕ → ℕ → Prop} {m m' : Mem} (h : Kept R m m') {k : ℕ} (hk : ∀ j, ¬R k j) : m'.cells k = m.cells k :=
  cell_ext (h.two k) (h.rows k) (h.cols k) (h.int k) fun i j => h.val k i j (hk j)

/-- The entries of some columns of an array. -/
def Block (r : Ref) (k j : ℕ) : Prop := k = r.id ∧ r.lo ≤ j ∧ j < r.lo + r.cols

theorem paste_kept (m : Mem) (r : Ref) (v : Cell) : Kept (Block r) m (m.paste r v) := by
  have key : ∀ k, k ≠ r.id → (m.paste r v).cells k = m.cells k := fun k hk => by simp [Mem.paste, hk]
  refine ⟨rfl, ?_, ?_, ?_, ?_, ?_⟩
  · intro k
    by_cases hk : k = r.id
    · subst hk; simp [Mem.paste]
    · rw [key k hk]
  · intro k
    by_cases hk : k = r.id
    · subst hk; simp [Mem.paste]
    · rw [key k hk]
  · intro k
    by_cases hk : k = r.id
    · subst hk; simp [Mem.paste]
    · rw [key k hk]
  · intro k
    by_cases hk : k = r.id
    · subst hk; simp [Mem.paste]
    · rw [key k hk]
  · intro k i j hb
    by_cases hk : k = r.id
    · subst hk
      simp only [Mem.paste, Function.update_self]
      rw [if_neg fun h => hb ⟨rfl, h.2⟩]
    · rw [key k hk]

theorem paste_val (m : Mem) (r : Ref) (v : Cell) {i j : ℕ} (hi : i < (m.cells r.id).rows) (hj : j < r.cols) :
    ((m.paste r v).read r).val i j = store (m.cells r.id).int (v.val i j) := by
  simp [Mem.read, Mem.paste, hi, hj]

/-! ### Operations -/

theorem sizes_same (lib : Lib) {A B : Cell} (h1 : A.rows = B.rows) (h2 : A.cols = B.cols) : sizes lib A B = .ok (B.rows, B.cols) := by
  cases lib <;> simp [sizes, axis, h1, h2, bind, Except.bind, pure, Except.pure]

theorem get_eq (c : Cell) {i j : ℕ} (hi : i < c.rows) (hj : j < c.cols) : c.get i j = c.val i j := by
  have h1 : (if c.rows = 1 then 0 else i) = i := by split_ifs <;> omega
  have h2 : (if c.cols = 1 then 0 else j) = j := by split_ifs <;> omega
  rw [Cell.get, h1, h2]

/-- Sizes and entries of an array. -/
structure Holds (c : Cell) (tw : Bool) (r n : ℕ) (f : ℕ → ℕ → ℝ) : Prop where
  two : c.two = tw
  rows : c.rows = r
  cols : c.cols = n
  val : ∀ i < r, ∀ j < n, c.val i j = f i j

theorem bop_holds (lib : Lib) (o : ℝ → ℝ → ℝ) {A B : Cell} {tw : Bool} {r n : ℕ} {f g : ℕ → ℕ → ℝ} (hA : Holds A tw r n f) (hB : Holds B tw r n g) :
    ∃ C, bop lib o A B = .ok C ∧ Holds C tw r n fun i j => o (f i j) (g i j) := by
  refine ⟨_, by rw [bop, sizes_same lib (hA.rows.trans hB.rows.symm) (hA.cols.trans hB.cols.symm)]; rfl, ?_⟩
  refine ⟨by simp [hA.two, hB.two], hB.rows, hB.cols, fun i hi j hj => ?_⟩
  dsimp only
  rw [get_eq A (hA.rows ▸ hi) (hA.cols ▸ hj), get_eq B (hB.rows ▸ hi) (hB.cols ▸ hj), hA.val i hi j hj, hB.val i hi j hj]

theorem scale_holds (k : ℝ) {A : Cell} {tw : Bool} {r n : ℕ} {f : ℕ → ℕ → ℝ} (hA : Holds A tw r n f) :
    Holds (scale k A) tw r n fun i j => k * f i j :=
  ⟨hA.two, hA.rows, hA.cols, fun i hi j hj => by simp only [scale]; rw [hA.val i hi j hj]⟩

/-! ### Divisions -/

/-- Columns that do not overlap. -/
def Apart (r s : Ref) : Prop := ∀ k j, Block r k j → ¬Block s k j

/-- The divisions of an array are in memory. -/
structure Divided (lib : Lib) (m m' : Mem) (r : Ref) (M dim : ℕ) (out : ℕ → Ref) : Prop where
  next : m.next ≤ m'.next
  kept : ∀ k < m.next, m'.cells k = m.cells k
  cols : ∀ p < M, (out p).cols = dim
  two : ∀ p < M, (m'.cells (out p).id).two = (m.cells r.id).two
  rows : ∀ p < M, (m'.cells (out p).id).rows = (m.cells r.id).rows
  int : ∀ p < M, (m'.cells (out p).id).int = (m.cells r.id).int
  val : ∀ p < M, ∀ i, ∀ j < dim, (m'.read (out p)).val i j = (m.read r).val i (dim * p + j)
  apart : ∀ p < M, ∀ q < M, p ≠ q → Apart (out p) (out q)
  view : lib = .numpy → m' = m ∧ ∀ p < M, out p = ⟨r.id, r.lo + dim * p, dim⟩
  fresh : lib = .casadi → ∀ p < M, m.next ≤ (out p).id ∧ (out p).id < m'.next

theorem numpy_divisions (m : Mem) (r : Ref) (order : ℕ) :
    divisions .numpy m r order = ((List.range order).map fun p => ⟨r.id, r.lo + r.cols / order * p, r.cols / order⟩, m) := by
  rw [divisions]
  dsimp only
  generalize r.cols / order = dim
  generalize hn : List.range order = l
  have : ∀ (l : List ℕ) (s : List Ref), l.foldl (fun s ii => let p := slice .numpy s.2 r (dim * ii) dim; (s.1 ++ [p.1], p.2)) (s, m)
      = (s ++ l.map fun p => ⟨r.id, r.lo + dim * p, dim⟩, m) := by
    intro l
    induction l with
    | nil => simp
    | cons k l ih =>
      intro s
      rw [List.foldl_cons]
      simp only [slice] at ih ⊢
      rw [ih]
      simp
  simpa using this l []

theorem casadi_divisions (m : Mem) {r : Ref} (hr : r.id < m.next) (order : ℕ) :
    ∃ m', divisions .casadi m r order = ((List.range order).map fun p => ⟨m.next + p, 0, r.cols / order⟩, m') ∧ m'.next = m.next + order ∧
      (∀ k < m.next, m'.cells k = m.cells k) ∧ ∀ p < order, m'.cells (m.next + p) = m.read ⟨r.id, r.lo + r.cols / order * p, r.cols / order⟩ := by
  rw [divisions]
  dsimp only
  generalize r.cols / order = dim
  induction order with
  | zero => exact ⟨m, by simp⟩
  | succ n ih =>
    obtain ⟨m', e, h1, h2, h3⟩ := ih
    rw [List.range_succ, List.foldl_append, e, List.foldl_cons, List.foldl_nil]
    refine ⟨(m'.alloc (m'.read ⟨r.id, r.lo + dim * n, dim⟩)).2, ?_, ?_, ?_, ?_⟩
    · simp [slice, Mem.alloc, h1, Mem.read]
    · simp [Mem.alloc, h1]
      omega
    · intro k hk
      rw [Mem.alloc]
      dsimp only
      rw [Function.update_of_ne (by omega), h2 k hk]
    · intro p hp
      rw [Mem.alloc]
      dsimp only
      rcases Nat.lt_succ_iff_lt_or_eq.mp hp with hp | rfl
      · rw [Function.update_of_ne (by omega), h3 p hp]
      · rw [h1, Function.update_self, Mem.read, Mem.read]
        dsimp only
        rw [h2 _ hr]

theorem block_lt {M dim p j : ℕ} (hp : p < M) (hj : j < dim) : dim * p + j < M * dim := by
  have : dim * (p + 1) ≤ dim * M := Nat.mul_le_mul_left _ hp
  rw [Nat.mul_comm M]
  rw [Nat.mul_succ] at this
  omega

theorem divisions_ok (lib : Lib) (m : Mem) {r : Ref} (hr : r.id < m.next) {M dim : ℕ} (hM : 0 < M) (hc : r.cols = M * dim) :
    ∃ out m', divisions lib m r M = ((List.range M).map out, m') ∧ Divided lib m m' r M dim out := by
  have hd : r.cols / M = dim := by rw [hc, Nat.mul_div_cancel_left _ hM]
  cases lib with
  | numpy =>
    refine ⟨_, _, numpy_divisions m r M, ?_⟩
    rw [hd]
    refine ⟨le_refl _, fun _ _ => rfl, fun _ _ => rfl, fun _ _ => rfl, fun _ _ => rfl, fun _ _ => rfl, fun p _ i j _ => ?_, ?_,
      fun _ => ⟨rfl, fun _ _ => rfl⟩, by simp⟩
    · simp [Mem.read, Nat.add_assoc]
    · rintro p - q - hpq k j ⟨-, h1, h2⟩ ⟨-, h3, h4⟩
      dsimp only at h1 h2 h3 h4
      rcases Nat.lt_or_gt_of_ne hpq with h | h
      · have := Nat.mul_le_mul_left dim (Nat.succ_le_of_lt h)
        rw [Nat.mul_succ] at this
        omega
      · have := Nat.mul_le_mul_left dim (Nat.succ_le_of_lt h)
        rw [Nat.mul_succ] at this
        omega
  | casadi =>
    obtain ⟨m', e, h1, h2, h3⟩ := casadi_divisions m hr M
    rw [hd] at e h3
    refine ⟨_, _, e, ?_⟩
    refine ⟨by omega, h2, fun _ _ => rfl, fun p hp => ?_, fun p hp => ?_, fun p hp => ?_, fun p hp i j hj => ?_, ?_, by simp, fun _ p hp => ?_⟩
    · dsimp only; rw [h3 p hp]; rfl
    · dsimp only; rw [h3 p hp]; rfl
    · dsimp only; rw [h3 p hp]; rfl
    · rw [Mem.read]
      dsimp only
      rw [h3 p hp]
      simp [Mem.read, Nat.add_assoc]
    · rintro p - q - hpq k j ⟨h1, -⟩ ⟨h2, -⟩
      dsimp only at h1 h2
      omega
    · dsimp only
      omega

/-! ### The loops -/

/-- A number to which terms are added one by one, stored after each addition. -/
noncomputable def acc (b : Bool) (first : ℝ) (term : ℕ → ℝ) : ℕ → ℝ
  | 0 => store b first
  | n + 1 => store b (acc b first term n + term n)

theorem acc_float (first : ℝ) (term : ℕ → ℝ) (n : ℕ) : acc false first term n = first + ∑ i ∈ Finset.range n, term i := by
  induction n with
  | zero => simp [acc, store]
  | succ n ih =>
    rw [acc, ih, Finset.sum_range_succ]
    simp only [store]
    simp
    ring

theorem trunc_trunc (v : ℝ) : trunc (trunc v) = trunc v := by
  have h : ∃ z : ℤ, trunc v = z := by
    rw [trunc]
    split_ifs
    · exact ⟨_, rfl⟩
    · exact ⟨_, rfl⟩
  obtain ⟨z, hz⟩ := h
  rw [hz, trunc]
  split_ifs <;> simp

theorem store_store (b : Bool) (v : ℝ) : store b (store b v) = store b v := by
  cases b <;> simp [store, trunc_trunc]

theorem store_acc (b : Bool) (first : ℝ) (term : ℕ → ℝ) (n : ℕ) : store b (acc b first term n) = acc b first term n := by
  cases n <;> simp [acc, store_store]

theorem nth_map {M : ℕ} (out : ℕ → Ref) {p : ℕ} (hp : p < M) : nth ((List.range M).map out) p = .ok (out p) := by
  simp [nth, hp]

/-- The terms added to a division. -/
theorem inner_ok (lib : Lib) {M dim r : ℕ} {tw b : Bool} (htw : tw = false → r = 1) {xs : ℕ → Ref} {tgt : Ref} {coef : ℕ → ℝ} {l : ℕ} (hl : l ≤ M)
    {X : ℕ → ℕ → ℕ → ℝ} {F : ℕ → ℕ → ℝ} (hcols : tgt.cols = dim) (n : ℕ) (hn : n ≤ l) (m : Mem)
    (h1 : (m.cells tgt.id).two = tw) (h2 : (m.cells tgt.id).rows = r) (h3 : (m.cells tgt.id).int = b)
    (h4 : ∀ i < r, ∀ j < dim, (m.read tgt).val i j = store b (F i j))
    (hx : ∀ p < M, (xs p).id ≠ tgt.id ∧ Holds (m.read (xs p)) tw r dim (X p)) :
    ∃ m', (List.range n).foldlM (fun m i => do
      let xi ← nth ((List.range M).map xs) (i + M - l)
      let t ← bop lib (· + ·) (m.read tgt) (scale (coef i) (m.read xi))
      itemequal m tgt t) m = .ok m' ∧ Kept (Block tgt) m m' ∧
      ∀ i < r, ∀ j < dim, (m'.read tgt).val i j = acc b (F i j) (fun q => coef q * X (q + M - l) i j) n := by
  induction n with
  | zero => exact ⟨m, rfl, Kept.refl _ _, h4⟩
  | succ n ih =>
    obtain ⟨m1, e, hk, hv⟩ := ih (by omega)
    rw [List.range_succ, List.foldlM_append, e]
    have hp : n + M - l < M := by omega
    obtain ⟨hid, hX⟩ := hx _ hp
    have hX' : Holds (m1.read (xs (n + M - l))) tw r dim (X (n + M - l)) := by
      have : m1.read (xs (n + M - l)) = m.read (xs (n + M - l)) := by
        rw [Mem.read, Mem.read, hk.cells fun j hb => hid hb.1]
      rw [this]
      exact hX
    have hT : Holds (m1.read tgt) tw r dim fun i j => acc b (F i j) (fun q => coef q * X (q + M - l) i j) n :=
      ⟨(hk.two _).trans h1, (hk.rows _).trans h2, hcols, hv⟩
    obtain ⟨C, eC, hC⟩ := bop_holds lib (· + ·) hT (scale_holds (coef n) hX')
    refine ⟨m1.paste tgt C, ?_, hk.trans (paste_kept _ _ _), fun i hi j hj => ?_⟩
    · simp only [bind, Except.bind, List.foldlM_cons, List.foldlM_nil, nth_map xs hp, eC, pure, Except.pure]
      rw [itemequal_eq]
      · intro h
        rw [hk.rows, h2]
        exact htw (h1.symm.trans ((hk.two _).symm.trans h))
      · rw [hC.two, hk.two, h1]
      · rw [hC.rows, hk.rows, h2]
      · rw [hC.cols, hcols]
    · rw [paste_val _ _ _ (by rw [hk.rows, h2]; exact hi) (hcols ▸ hj), hk.int, h3, hC.val i hi j hj, acc]

/-- The divisions after the loops. -/
theorem fill_ok (lib : Lib) {M dim r : ℕ} {tw b : Bool} (htw : tw = false → r = 1) {xs out : ℕ → Ref} {first : Mem → ℕ → Except AErr Cell} {coef : ℕ → ℝ}
    {count : ℕ → ℕ} (hcount : ∀ l, count l ≤ l) {X F : ℕ → ℕ → ℕ → ℝ} (m : Mem)
    (h0 : ∀ p < M, (out p).cols = dim) (h1 : ∀ p < M, (m.cells (out p).id).two = tw) (h2 : ∀ p < M, (m.cells (out p).id).rows = r)
    (h3 : ∀ p < M, (m.cells (out p).id).int = b) (h4 : ∀ p < M, ∀ q < M, p ≠ q → Apart (out p) (out q))
    (hx : ∀ p < M, (∀ q < M, (xs p).id ≠ (out q).id) ∧ Holds (m.read (xs p)) tw r dim (X p))
    (hf : ∀ m', Kept (fun k _ => ∃ p < M, k = (out p).id) m m' → ∀ l, 1 ≤ l → l ≤ M → ∃ t, first m' l = .ok t ∧ Holds t tw r dim (F l)) :
    ∃ m', fill lib M m ((List.range M).map xs) ((List.range M).map out) first coef count = .ok m' ∧
      Kept (fun k _ => ∃ p < M, k = (out p).id) m m' ∧
      ∀ p < M, ∀ i < r, ∀ j < dim, (m'.read (out p)).val i j = acc b (F (M - p) i j) (fun q => coef q * X (q + p) i j) (count (M - p)) := by
  suffices H : ∀ n ≤ M, ∃ m', (List.range n).foldlM (fun m k => do
      let l := k + 1
      let tgt ← nth ((List.range M).map out) (M - l)
      let t ← first m l
      let m ← itemequal m tgt t
      (List.range (count l)).foldlM (fun m i => do
        let xi ← nth ((List.range M).map xs) (i + M - l)
        let t ← bop lib (· + ·) (m.read tgt) (scale (coef i) (m.read xi))
        itemequal m tgt t) m) m = .ok m' ∧
      Kept (fun k _ => ∃ p < M, k = (out p).id) m m' ∧
      ∀ p < M, M - n ≤ p → ∀ i < r, ∀ j < dim, (m'.read (out p)).val i j = acc b (F (M - p) i j) (fun q => coef q * X (q + p) i j) (count (M - p)) by
    obtain ⟨m', e, hk, hv⟩ := H M le_rfl
    exact ⟨m', e, hk, fun p hp => hv p hp (by omega)⟩
  intro n hn
  induction n with
  | zero => exact ⟨m, rfl, Kept.refl _ _, fun p hp h => by omega⟩
  | succ n ih =>
    obtain ⟨m1, e, hk, hv⟩ := ih (by omega)
    obtain ⟨P, hP⟩ : ∃ P, P = M - (n + 1) := ⟨_, rfl⟩
    have hPM : P < M := by omega
    obtain ⟨t, et, ht⟩ := hf m1 hk (n + 1) (by omega) hn
    have hsub : ∀ k j, Block (out P) k j → ∃ p < M, k = (out p).id := fun k j hb => ⟨P, hPM, hb.1⟩
    have hk2 := hk.trans ((paste_kept m1 (out P) t).mono hsub)
    have hie : itemequal m1 (out P) t = .ok (m1.paste (out P) t) := by
      refine itemequal_eq ?_ ?_ ?_ ?_
      · intro h
        rw [hk.rows, h2 P hPM]
        exact htw ((h1 P hPM).symm.trans ((hk.two _).symm.trans h))
      · rw [ht.two, hk.two, h1 P hPM]
      · rw [ht.rows, hk.rows, h2 P hPM]
      · rw [ht.cols, h0 P hPM]
    obtain ⟨m2, e2, hk3, hv2⟩ := inner_ok lib (coef := coef) htw (xs := xs) (tgt := out P) (F := F (n + 1)) (X := X) (b := b) (l := n + 1) hn (h0 P hPM)
      (count (n + 1)) (hcount _) (m1.paste (out P) t) (by rw [hk2.two, h1 P hPM]) (by rw [hk2.rows, h2 P hPM]) (by rw [hk2.int, h3 P hPM])
      (fun i hi j hj => by
        rw [paste_val _ _ _ (by rw [hk.rows, h2 P hPM]; exact hi) (by rw [h0 P hPM]; exact hj), hk.int, h3 P hPM, ht.val i hi j hj])
      (fun p hp => by
        refine ⟨(hx p hp).1 P hPM, ?_⟩
        have : (m1.paste (out P) t).read (xs p) = m.read (xs p) := by
          rw [Mem.read, Mem.read, hk2.cells fun j hb => ?_]
          obtain ⟨q, hq, hb⟩ := hb
          exact (hx p hp).1 q hq hb
        rw [this]
        exact (hx p hp).2)
    refine ⟨m2, ?_, hk2.trans (hk3.mono hsub), fun p hp hn' i hi j hj => ?_⟩
    · rw [List.range_succ, List.foldlM_append, e]
      simp only [bind, Except.bind, List.foldlM_cons, List.foldlM_nil, pure, Except.pure, nth_map out hPM, ← hP, et, hie] at e2 ⊢
      rw [e2]
    · by_cases hpP : p = P
      · subst hpP
        rw [hv2 i hi j hj]
        have h1 : M - p = n + 1 := by omega
        have h2 : ∀ q, q + M - (n + 1) = q + p := fun q => by omega
        simp only [h1, h2]
      · rw [← hv p hp (by omega) i hi j hj]
        have hb : ∀ jj, jj < dim → ¬Block (out P) (out p).id ((out p).lo + jj) := fun jj hjj hb =>
          h4 p hp P hPM hpP _ _ ⟨rfl, by omega, by rw [h0 p hp]; omega⟩ hb
        simp only [Mem.read]
        rw [hk3.val _ _ _ (hb j hj), (paste_kept m1 (out P) t).val _ _ _ (hb j hj)]

/-- The array after `reunite_matrix` has the divisions. -/
theorem reunite_ok {M dim r : ℕ} (hM : 0 < M) {b : Bool} {out : ℕ → Ref} {arr : Ref} (hc : arr.cols = M * dim) {W : ℕ → ℕ → ℕ → ℝ} (m : Mem)
    (hr : (m.cells arr.id).rows = r) (hb : (m.cells arr.id).int = b) (h0 : ∀ p < M, (out p).cols = dim)
    (hW : ∀ p < M, ∀ i < r, ∀ j < dim, (m.read (out p)).val i j = W p i j ∧ store b (W p i j) = W p i j)
    (h : (∀ p < M, out p = ⟨arr.id, arr.lo + dim * p, dim⟩) ∨ ∀ p < M, (out p).id ≠ arr.id) :
    ∃ m', reunite m arr ((List.range M).map out) M = .ok m' ∧ Kept (fun k _ => k = arr.id) m m' ∧
      ∀ p < M, ∀ i < r, ∀ j < dim, (m'.read arr).val i (dim * p + j) = W p i j := by
  have hd : arr.cols / M = dim := by rw [hc, Nat.mul_div_cancel_left _ hM]
  rw [reunite, hd]
  suffices H : ∀ n ≤ M, ∃ m', (List.range n).foldlM (fun m ii => do
      let r ← nth ((List.range M).map out) ii
      return m.paste ⟨arr.id, arr.lo + dim * ii, dim⟩ (m.read r)) m = (.ok m' : Except AErr Mem) ∧ Kept (fun k _ => k = arr.id) m m' ∧
      (∀ p < M, ∀ i < r, ∀ j < dim, (m'.read (out p)).val i j = W p i j) ∧
      ∀ p < n, ∀ i < r, ∀ j < dim, (m'.read arr).val i (dim * p + j) = W p i j by
    obtain ⟨m', e, hk, -, hv⟩ := H M le_rfl
    exact ⟨m', e, hk, hv⟩
  intro n hn
  induction n with
  | zero => exact ⟨m, rfl, Kept.refl _ _, fun p hp i hi j hj => (hW p hp i hi j hj).1, fun p hp => by omega⟩
  | succ n ih =>
    obtain ⟨m1, e, hk, hv, hv2⟩ := ih (by omega)
    have hnM : n < M := by omega
    obtain ⟨s, hs⟩ : ∃ s : Ref, s = ⟨arr.id, arr.lo + dim * n, dim⟩ := ⟨_, rfl⟩
    have hsi : s.id = arr.id := by rw [hs]
    have hkp := paste_kept m1 s (m1.read (out n))
    -- the entry of the array at column `dim * p + j`
    have hnew : ∀ i < r, ∀ j < dim, ((m1.paste s (m1.read (out n))).read s).val i j = W n i j := fun i hi j hj => by
      rw [paste_val _ _ _ (by rw [hsi, hk.rows, hr]; exact hi) (by rw [hs]; exact hj), hsi, hk.int, hb, hv n hnM i hi j hj, (hW n hnM i hi j hj).2]
    have hold : ∀ p, p ≠ n → ∀ i, ∀ j < dim, ((m1.paste s (m1.read (out n))).read arr).val i (dim * p + j) = (m1.read arr).val i (dim * p + j) := by
      intro p hp i j hj
      simp only [Mem.read]
      refine hkp.val _ _ _ fun hb => ?_
      obtain ⟨-, h1, h2⟩ := hb
      rw [hs] at h1 h2
      dsimp only at h1 h2
      rcases Nat.lt_or_gt_of_ne hp with h | h
      · have := Nat.mul_le_mul_left dim (Nat.succ_le_of_lt h)
        rw [Nat.mul_succ] at this
        omega
      · have := Nat.mul_le_mul_left dim (Nat.succ_le_of_lt h)
        rw [Nat.mul_succ] at this
        omega
    have hsame : ∀ m' : Mem, ∀ p i j, (m'.read ⟨arr.id, arr.lo + dim * p, dim⟩).val i j = (m'.read arr).val i (dim * p + j) := fun m' p i j => by
      simp [Mem.read, Nat.add_assoc]
    have harr : ∀ p < n + 1, ∀ i < r, ∀ j < dim, ((m1.paste s (m1.read (out n))).read arr).val i (dim * p + j) = W p i j := by
      intro p hp i hi j hj
      by_cases hpn : p = n
      · subst hpn
        rw [← hsame, ← hs, hnew i hi j hj]
      · rw [hold p hpn i j hj, hv2 p (by omega) i hi j hj]
    have hrest : (∀ p < M, (out p).id ≠ arr.id) → ∀ p < M, (m1.paste s (m1.read (out n))).read (out p) = m1.read (out p) := fun h p hp =>
      read_congr (hkp.cells fun j hb => h p hp (hb.1.trans hsi))
    refine ⟨m1.paste s (m1.read (out n)), ?_, hk.trans (hkp.mono fun k j hb => hb.1.trans hsi), ?_, harr⟩
    · rw [List.range_succ, List.foldlM_append, e]
      simp only [bind, Except.bind, List.foldlM_cons, List.foldlM_nil, pure, Except.pure, nth_map out hnM, ← hs]
    · generalize m1.paste s (m1.read (out n)) = m2 at hold harr hrest
      intro p hp i hi j hj
      rcases h with h | h
      · by_cases hpn : p = n
        · subst hpn
          rw [h p hp, hsame, harr p (by omega) i hi j hj]
        · rw [h p hp, hsame, hold p hpn i j hj, ← hsame, ← h p hp, hv p hp i hi j hj]
      · rw [hrest h p hp, hv p hp i hi j hj]

/-! ### The functions -/

/-- An array of `r` rows and `n` columns in memory. -/
structure Fits (m : Mem) (x : Ref) (tw : Bool) (r n : ℕ) : Prop where
  id : x.id < m.next
  two : (m.cells x.id).two = tw
  rows : (m.cells x.id).rows = r
  cols : x.cols = n

theorem Fits.holds {m : Mem} {x : Ref} {tw : Bool} {r n : ℕ} (h : Fits m x tw r n) : Holds (m.read x) tw r n (m.read x).val :=
  ⟨h.two, h.rows, h.cols, fun _ _ _ _ => rfl⟩

theorem Fits.later {m m' : Mem} {x : Ref} {tw : Bool} {r n : ℕ} (h : Fits m x tw r n) (hm : ∀ k < m.next, m'.cells k = m.cells k) :
    m'.read x = m.read x := by
  rw [Mem.read, Mem.read, hm _ h.id]

theorem exists_block {M dim c : ℕ} (h : c < M * dim) : ∃ p < M, ∃ j < dim, c = dim * p + j := by
  have hd : 0 < dim := Nat.pos_of_ne_zero fun h0 => by simp [h0] at h
  exact ⟨c / dim, (Nat.div_lt_iff_lt_mul hd).2 h, c % dim, Nat.mod_lt _ hd, (Nat.div_add_mod c dim).symm⟩

/-- A copy, its divisions and those of other arrays, the loops and `reunite_matrix`. -/
theorem order_ok (lib : Lib) {M dim r : ℕ} (hM : 0 < M) {tw b : Bool} (htw : tw = false → r = 1) (m0 m1 : Mem) {x res : Ref}
    (hres : res = ⟨m0.next, 0, x.cols⟩) (h01 : ∀ k < m0.next, m1.cells k = m0.cells k) (hn : m0.next < m1.next)
    (hx : Fits m0 x tw r (M * dim)) (hb : (m0.cells x.id).int = b)
    (hcopy : m1.cells m0.next = m0.read x) {xs : ℕ → Ref} (hxs : ∀ p < M, (xs p).id < m1.next ∧ (xs p).id ≠ m0.next)
    (hX : ∀ p < M, Holds (m1.read (xs p)) tw r dim fun i j => (m0.read x).val i (dim * p + j))
    {first : Mem → ℕ → Except AErr Cell} {coef : ℕ → ℝ} {count : ℕ → ℕ} (hcount : ∀ l, count l ≤ l) {F : ℕ → ℕ → ℕ → ℝ}
    (hf : ∀ m', (∀ k < m1.next, k ≠ m0.next → m'.cells k = m1.cells k) → ∀ l, 1 ≤ l → l ≤ M → ∃ t, first m' l = .ok t ∧ Holds t tw r dim (F l)) :
    ∃ res_list m' m3 m2, divisions lib m1 res M = (res_list, m') ∧
      fill lib M m' ((List.range M).map xs) res_list first coef count = .ok m3 ∧ reunite m3 res res_list M = .ok m2 ∧ (∀ k < m0.next, m2.cells k = m0.cells k) ∧
      Holds (m2.read res) tw r (M * dim) (m2.read res).val ∧
      ∀ p < M, ∀ i < r, ∀ j < dim, (m2.read res).val i (dim * p + j) =
        acc b (F (M - p) i j) (fun q => coef q * (m0.read x).val i (dim * (q + p) + j)) (count (M - p)) := by
  have hid : res.id = m0.next := by rw [hres]
  have hcells : m1.cells res.id = m0.read x := by rw [hid, hcopy]
  have hc : res.cols = M * dim := by rw [hres]; exact hx.cols
  obtain ⟨out, m', e, hd⟩ := divisions_ok lib m1 (r := res) (by omega) hM hc
  have hout : ∀ p < M, (out p).id = m0.next ∨ m1.next ≤ (out p).id := fun p hp => by
    cases lib with
    | numpy => left; rw [(hd.view rfl).2 p hp, hid]
    | casadi => right; exact (hd.fresh rfl p hp).1
  obtain ⟨m3, e3, hk3, hv3⟩ := fill_ok lib (coef := coef) (b := b) htw (xs := xs) (out := out) (first := first) hcount (F := F)
    (X := fun p i j => (m0.read x).val i (dim * p + j)) m' hd.cols
    (fun p hp => by rw [hd.two p hp, hcells]; exact hx.two) (fun p hp => by rw [hd.rows p hp, hcells]; exact hx.rows)
    (fun p hp => by rw [hd.int p hp, hcells]; exact hb) hd.apart
    (fun p hp => ⟨fun q hq => by have := hout q hq; have := hxs p hp; omega, by
      rw [Mem.read, hd.kept _ (hxs p hp).1]
      exact hX p hp⟩)
    (fun m4 hk l h1 h2 => hf m4 (fun k hk1 hk2 => by
      rw [hk.cells fun j hj => ?_, hd.kept k hk1]
      obtain ⟨p, hp, rfl⟩ := hj
      have := hout p hp
      omega) l h1 h2)
  have hmeta : (m'.cells res.id) = m1.cells res.id := hd.kept _ (by omega)
  obtain ⟨m5, e5, hk5, hv5⟩ := reunite_ok (dim := dim) (r := r) (b := b) hM (out := out) hc m3 (by rw [hk3.rows, hmeta, hcells]; exact hx.rows)
    (by rw [hk3.int, hmeta, hcells]; exact hb) hd.cols (fun p hp i hi j hj => ⟨hv3 p hp i hi j hj, store_acc _ _ _ _⟩)
    (by
      cases lib with
      | numpy => exact .inl fun p hp => (hd.view rfl).2 p hp
      | casadi =>
        refine .inr fun p hp => ?_
        have := (hd.fresh rfl p hp).1
        omega)
  refine ⟨_, _, m3, m5, e, e3, e5, fun k hk => ?_, ⟨?_, ?_, ?_, fun _ _ _ _ => rfl⟩, hv5⟩
  · rw [hk5.cells fun j hj => by omega, hk3.cells fun j hj => ?_, hd.kept k (by omega), h01 k hk]
    obtain ⟨p, hp, rfl⟩ := hj
    have := hout p hp
    omega
  · rw [Mem.read]
    dsimp only
    rw [hk5.two, hk3.two, hmeta, hcells]
    exact hx.two
  · rw [Mem.read]
    dsimp only
    rw [hk5.rows, hk3.rows, hmeta, hcells]
    exact hx.rows
  · exact hc

/-- The memory after copying an array and dividing it. -/
theorem copied (lib : Lib) {M dim r : ℕ} (hM : 0 < M) {tw : Bool} (m : Mem) {x y : Ref} (hx : Fits m x tw r (M * dim)) (hy : Fits m y tw r (M * dim))
    (m1 : Mem) (h1 : ∀ k < m.next, m1.cells k = m.cells k) (h2 : m.next < m1.next) (h3 : m1.cells m.next = m.read x) :
    ∃ xs m2, divisions lib m1 y M = ((List.range M).map xs, m2) ∧ (∀ k < m1.next, m2.cells k = m1.cells k) ∧ m1.next ≤ m2.next ∧
      (∀ p < M, (xs p).id < m2.next ∧ (xs p).id ≠ m.next) ∧
      ∀ p < M, Holds (m2.read (xs p)) tw r dim fun i j => (m.read y).val i (dim * p + j) := by
  have hid := hy.id
  obtain ⟨xs, m2, e, hd⟩ := divisions_ok lib m1 (r := y) (by omega) hM hy.cols
  refine ⟨xs, m2, e, hd.kept, hd.next, fun p hp => ?_, fun p hp => ⟨?_, ?_, hd.cols p hp, fun i hi j hj => ?_⟩⟩
  · cases lib with
    | numpy =>
      rw [(hd.view rfl).1, (hd.view rfl).2 p hp]
      exact ⟨by show y.id < _; omega, by show y.id ≠ _; omega⟩
    | casadi =>
      have := hd.fresh rfl p hp
      omega
  · exact (hd.two p hp).trans (by rw [h1 _ hid]; exact hy.two)
  · exact (hd.rows p hp).trans (by rw [h1 _ hid]; exact hy.rows)
  · rw [hd.val p hp i j hj, read_congr (h1 _ hid)]

theorem alloc_copy (m : Mem) (x : Ref) (m1 : Mem) (h : m1 = (m.alloc (m.read x)).2) :
    (∀ k < m.next, m1.cells k = m.cells k) ∧ m.next < m1.next ∧ m1.cells m.next = m.read x := by
  subst h
  refine ⟨fun k hk => ?_, ?_, ?_⟩
  · simp only [Mem.alloc]
    rw [Function.update_of_ne (by omega)]
  · simp [Mem.alloc]
  · simp [Mem.alloc]

/-- The restriction of `trapz_n` on arrays that contain any type of numbers. -/
theorem trapzM_ok (lib : Lib) {M dim r : ℕ} (hM : 0 < M) {tw : Bool} (htw : tw = false → r = 1) (m : Mem) {x xn a an : Ref} (dt : ℝ)
    (hx : Fits m x tw r (M * dim)) (hxn : Fits m xn tw r (M * dim)) (ha : Fits m a tw r dim) (han : Fits m an tw r dim) :
    ∃ out m', trapzM lib M m x xn a an dt = .ok (out, m') ∧ (∀ k < m.next, m'.cells k = m.cells k) ∧
      Holds out tw r (M * dim) out.val ∧ ∀ p < M, ∀ i < r, ∀ j < dim, out.val i (dim * p + j) = (m.read xn).val i (dim * p + j) -
        acc (m.cells x.id).int
          (dt ^ (M - p) * (1 / (Nat.factorial (M - p + 1) : ℝ)) * (((M - p : ℕ) : ℝ) * (m.read a).val i j + (m.read an).val i j))
          (fun q => dt ^ q * (1 / (Nat.factorial q : ℝ)) * (m.read x).val i (dim * (q + p) + j)) (M - p) := by
  obtain ⟨m1, hm1⟩ : ∃ m1, m1 = (m.alloc (m.read x)).2 := ⟨_, rfl⟩
  obtain ⟨h1, h2, h3⟩ := alloc_copy m x m1 hm1
  have hal : m.alloc (m.read x) = (⟨m.next, 0, x.cols⟩, m1) := by rw [hm1]; rfl
  obtain ⟨xs, m2, e2, h4, h5, h6, h7⟩ := copied lib hM m hx hx m1 h1 h2 h3
  have h8 : ∀ k < m.next, m2.cells k = m.cells k := fun k hk => by rw [h4 k (by omega), h1 k hk]
  obtain ⟨rl, m3, m4, m5, e3, e4, e5, h9, h10, h11⟩ := order_ok lib hM htw m m2 (x := x) (res := ⟨m.next, 0, x.cols⟩) rfl h8 (by omega) hx rfl
    (by rw [h4 _ h2, h3]) h6 h7 (coef := fun i => dt ^ i * (1 / (Nat.factorial i : ℝ))) (count := fun l => l) (fun _ => le_rfl)
    (first := fun m l => do
      let t ← bop lib (· + ·) (scale l (m.read a)) (m.read an)
      return scale (dt ^ l * (1 / (Nat.factorial (l + 1) : ℝ))) t)
    (F := fun l i j => dt ^ l * (1 / (Nat.factorial (l + 1) : ℝ)) * ((l : ℝ) * (m.read a).val i j + (m.read an).val i j))
    (fun m' hm' l _ _ => by
      have hk : ∀ k < m.next, m'.cells k = m.cells k := fun k hk => by rw [hm' k (by omega) (by omega), h8 k hk]
      rw [ha.later hk, han.later hk]
      obtain ⟨t, et, ht⟩ := bop_holds lib (· + ·) (scale_holds (l : ℝ) ha.holds) han.holds
      exact ⟨_, by rw [et]; rfl, scale_holds _ ht⟩)
  have hxn' := hxn.holds
  rw [← hxn.later h9] at hxn'
  obtain ⟨out, e6, h12⟩ := bop_holds lib (· - ·) hxn' h10
  refine ⟨out, m5, ?_, h9, ⟨h12.two, h12.rows, h12.cols, fun _ _ _ _ => rfl⟩, fun p hp i hi j hj => ?_⟩
  · rw [trapzM]
    simp only [hal, e2, e3, bind, Except.bind, pure, Except.pure] at e4 ⊢
    simp only [e4, e5, e6]
  · rw [h12.val i hi _ (block_lt hp hj), h11 p hp i hi j hj, hxn.later h9]

/-- The restriction of `hsn` on arrays that contain any type of numbers. -/
theorem hsM_ok (lib : Lib) {M dim r : ℕ} (hM : 0 < M) {tw : Bool} (htw : tw = false → r = 1) (m : Mem) {x xn a an ac : Ref} (dt : ℝ)
    (hx : Fits m x tw r (M * dim)) (hxn : Fits m xn tw r (M * dim)) (ha : Fits m a tw r dim) (han : Fits m an tw r dim) (hac : Fits m ac tw r dim) :
    ∃ out m', hsM lib M m x xn a an dt ac = .ok (out, m') ∧ (∀ k < m.next, m'.cells k = m.cells k) ∧
      Holds out tw r (M * dim) out.val ∧ ∀ p < M, ∀ i < r, ∀ j < dim, out.val i (dim * p + j) = (m.read xn).val i (dim * p + j) -
        acc (m.cells x.id).int
          (dt ^ (M - p) / (Nat.factorial (M - p + 2) : ℝ) * (((M - p : ℕ) : ℝ) ^ 2 * (m.read a).val i j +
            4 * ((M - p : ℕ) : ℝ) * (m.read ac).val i j + (2 - ((M - p : ℕ) : ℝ)) * (m.read an).val i j))
          (fun q => dt ^ q * (1 / (Nat.factorial q : ℝ)) * (m.read x).val i (dim * (q + p) + j)) (M - p) := by
  obtain ⟨m1, hm1⟩ : ∃ m1, m1 = (m.alloc (m.read x)).2 := ⟨_, rfl⟩
  obtain ⟨h1, h2, h3⟩ := alloc_copy m x m1 hm1
  have hal : m.alloc (m.read x) = (⟨m.next, 0, x.cols⟩, m1) := by rw [hm1]; rfl
  obtain ⟨xs, m2, e2, h4, h5, h6, h7⟩ := copied lib hM m hx hx m1 h1 h2 h3
  have h8 : ∀ k < m.next, m2.cells k = m.cells k := fun k hk => by rw [h4 k (by omega), h1 k hk]
  obtain ⟨rl, m3, m4, m5, e3, e4, e5, h9, h10, h11⟩ := order_ok lib hM htw m m2 (x := x) (res := ⟨m.next, 0, x.cols⟩) rfl h8 (by omega) hx rfl
    (by rw [h4 _ h2, h3]) h6 h7 (coef := fun i => dt ^ i * (1 / (Nat.factorial i : ℝ))) (count := fun l => l) (fun _ => le_rfl)
    (first := fun m l => do
      let t ← bop lib (· + ·) (scale ((l : ℝ) ^ 2) (m.read a)) (scale (4 * l) (m.read ac))
      let t ← bop lib (· + ·) t (scale (2 - l) (m.read an))
      return scale (dt ^ l / (Nat.factorial (l + 2) : ℝ)) t)
    (F := fun l i j => dt ^ l / (Nat.factorial (l + 2) : ℝ) * ((l : ℝ) ^ 2 * (m.read a).val i j +
            4 * (l : ℝ) * (m.read ac).val i j + (2 - (l : ℝ)) * (m.read an).val i j))
    (fun m' hm' l _ _ => by
      have hk : ∀ k < m.next, m'.cells k = m.cells k := fun k hk => by rw [hm' k (by omega) (by omega), h8 k hk]
      rw [ha.later hk, han.later hk, hac.later hk]
      obtain ⟨t, et, ht⟩ := bop_holds lib (· + ·) (scale_holds ((l : ℝ) ^ 2) ha.holds) (scale_holds (4 * (l : ℝ)) hac.holds)
      obtain ⟨s, es, hs⟩ := bop_holds lib (· + ·) ht (scale_holds (2 - (l : ℝ)) han.holds)
      exact ⟨_, by simp only [et, es, bind, Except.bind, pure, Except.pure], scale_holds _ hs⟩)
  have hxn' := hxn.holds
  rw [← hxn.later h9] at hxn'
  obtain ⟨out, e6, h12⟩ := bop_holds lib (· - ·) hxn' h10
  refine ⟨out, m5, ?_, h9, ⟨h12.two, h12.rows, h12.cols, fun _ _ _ _ => rfl⟩, fun p hp i hi j hj => ?_⟩
  · rw [hsM]
    simp only [hal, e2, e3, bind, Except.bind, pure, Except.pure] at e4 ⊢
    simp only [e4, e5, e6]
  · rw [h12.val i hi _ (block_lt hp hj), h11 p hp i hi j hj, hxn.later h9]

/-- The middle point of `hsn` on arrays that contain any type of numbers. -/
theorem hsMHalf_ok (lib : Lib) {M dim r : ℕ} (hM : 0 < M) {tw : Bool} (htw : tw = false → r = 1) (m : Mem) {x xn a an : Ref} (dt : ℝ)
    (hx : Fits m x tw r (M * dim)) (hxn : Fits m xn tw r (M * dim)) (ha : Fits m a tw r dim) (han : Fits m an tw r dim) :
    ∃ out m', hsMHalf lib M m x xn a an dt = .ok (out, m') ∧ (∀ k < m.next, m'.cells k = m.cells k) ∧
      Holds out tw r (M * dim) out.val ∧ ∀ p < M, ∀ i < r, ∀ j < dim, out.val i (dim * p + j) =
        acc (m.cells x.id).int
          (dt ^ (M - p - 1) / (2 ^ (M - p) * Nat.factorial (M - p) * (((M - p : ℕ) : ℝ) + 2) : ℝ) *
              (3 * (m.read xn).val i (dim * (M - 1) + j) + (2 * ((M - p : ℕ) : ℝ) ^ 2 + 4 * ((M - p : ℕ) : ℝ) - 3) * (m.read x).val i (dim * (M - 1) + j)) +
            dt ^ (M - p) / (2 ^ (M - p + 1) * Nat.factorial (M - p + 2) : ℝ) *
              ((2 * ((M - p : ℕ) : ℝ) ^ 2 + 2 * ((M - p : ℕ) : ℝ) - 1) * (m.read a).val i j + (-2 * ((M - p : ℕ) : ℝ) - 1) * (m.read an).val i j))
          (fun q => dt ^ q * (1 / (2 ^ q * Nat.factorial q : ℝ)) * (m.read x).val i (dim * (q + p) + j)) (M - p - 1) := by
  obtain ⟨m1, hm1⟩ : ∃ m1, m1 = (m.alloc (m.read x)).2 := ⟨_, rfl⟩
  obtain ⟨h1, h2, h3⟩ := alloc_copy m x m1 hm1
  have hal : m.alloc (m.read x) = (⟨m.next, 0, x.cols⟩, m1) := by rw [hm1]; rfl
  obtain ⟨xs, m2, e2, h4, h5, h6, h7⟩ := copied lib hM m hx hx m1 h1 h2 h3
  have h8 : ∀ k < m.next, m2.cells k = m.cells k := fun k hk => by rw [h4 k (by omega), h1 k hk]
  obtain ⟨xns, m2', e2', h4', h5', h6', h7'⟩ := copied lib hM m hx hxn m2 h8 (by omega) (by rw [h4 _ h2, h3])
  have h8' : ∀ k < m.next, m2'.cells k = m.cells k := fun k hk => by rw [h4' k (by omega), h8 k hk]
  have hM1 : M - 1 < M := by omega
  have hX : ∀ p < M, Holds (m2'.read (xs p)) tw r dim fun i j => (m.read x).val i (dim * p + j) := fun p hp => by
    rw [read_congr (h4' _ (h6 p hp).1)]
    exact h7 p hp
  obtain ⟨rl, m3, m4, m5, e3, e4, e5, h9, h10, h11⟩ := order_ok lib hM htw m m2' (x := x) (res := ⟨m.next, 0, x.cols⟩) rfl h8' (by omega) hx rfl
    (by rw [h4' _ (by omega), h4 _ h2, h3]) (fun p hp => ⟨by have := (h6 p hp).1; omega, (h6 p hp).2⟩) hX
    (coef := fun i => dt ^ i * (1 / (2 ^ i * Nat.factorial i : ℝ))) (count := fun l => l - 1) (fun _ => Nat.sub_le _ _)
    (first := fun m l => do
      let t ← bop lib (· + ·) (scale 3 (m.read (xns (M - 1)))) (scale (2 * (l : ℝ) ^ 2 + 4 * l - 3) (m.read (xs (M - 1))))
      let s ← bop lib (· + ·) (scale (2 * (l : ℝ) ^ 2 + 2 * l - 1) (m.read a)) (scale (-2 * (l : ℝ) - 1) (m.read an))
      bop lib (· + ·) (scale (dt ^ (l - 1) / (2 ^ l * Nat.factorial l * (l + 2) : ℝ)) t)
        (scale (dt ^ l / (2 ^ (l + 1) * Nat.factorial (l + 2) : ℝ)) s))
    (F := fun l i j => dt ^ (l - 1) / (2 ^ l * Nat.factorial l * (l + 2) : ℝ) *
              (3 * (m.read xn).val i (dim * (M - 1) + j) + (2 * (l : ℝ) ^ 2 + 4 * (l : ℝ) - 3) * (m.read x).val i (dim * (M - 1) + j)) +
            dt ^ l / (2 ^ (l + 1) * Nat.factorial (l + 2) : ℝ) *
              ((2 * (l : ℝ) ^ 2 + 2 * (l : ℝ) - 1) * (m.read a).val i j + (-2 * (l : ℝ) - 1) * (m.read an).val i j))
    (fun m' hm' l _ _ => by
      have hk : ∀ k < m.next, m'.cells k = m.cells k := fun k hk => by rw [hm' k (by omega) (by omega), h8' k hk]
      rw [ha.later hk, han.later hk, read_congr (hm' _ (h6' _ hM1).1 (h6' _ hM1).2),
        read_congr (hm' (xs (M - 1)).id (by have := (h6 _ hM1).1; omega) (h6 _ hM1).2)]
      obtain ⟨t, et, ht⟩ := bop_holds lib (· + ·) (scale_holds 3 (h7' _ hM1)) (scale_holds (2 * (l : ℝ) ^ 2 + 4 * l - 3) (hX _ hM1))
      obtain ⟨s, es, hs⟩ := bop_holds lib (· + ·) (scale_holds (2 * (l : ℝ) ^ 2 + 2 * l - 1) ha.holds) (scale_holds (-2 * (l : ℝ) - 1) han.holds)
      simp only [et, es, bind, Except.bind]
      exact bop_holds lib (· + ·) (scale_holds _ ht) (scale_holds _ hs))
  refine ⟨m5.read ⟨m.next, 0, x.cols⟩, m5, ?_, h9, h10, h11⟩
  rw [hsMHalf]
  simp only [hal, e2, e2', e3, bind, Except.bind, nth_map _ hM1] at e4 ⊢
  simp only [e4, e5, pure, Except.pure]

/-! ### C142: the functions of order M on arrays of floats -/

/-- C142. -/
theorem C142_trapz (lib : Lib) {M dim r : ℕ} (hM : 0 < M) {tw : Bool} (htw : tw = false → r = 1) (m : Mem) {x xn a an : Ref} (dt : ℝ)
    (hx : Fits m x tw r (M * dim)) (hxn : Fits m xn tw r (M * dim)) (ha : Fits m a tw r dim) (han : Fits m an tw r dim)
    (hfl : (m.cells x.id).int = false) :
    ∃ out m', trapzM lib M m x xn a an dt = .ok (out, m') ∧ (∀ k < m.next, m'.cells k = m.cells k) ∧
      out.two = tw ∧ out.rows = r ∧ out.cols = M * dim ∧ ∀ p < M, ∀ i < r, ∀ j < dim, out.val i (dim * p + j) =
        trapzMRestr M (fun p => (m.read x).val i (dim * p + j)) (fun p => (m.read xn).val i (dim * p + j))
          ((m.read a).val i j) ((m.read an).val i j) dt p := by
  obtain ⟨out, m', e, h1, h2, h3⟩ := trapzM_ok lib hM htw m dt hx hxn ha han
  refine ⟨out, m', e, h1, h2.two, h2.rows, h2.cols, fun p hp i hi j hj => ?_⟩
  rw [h3 p hp i hi j hj, hfl, acc_float]
  have : ∀ q, q + M - (M - p) = q + p := fun q => by omega
  simp only [trapzMRestr, smul_eq_mul, this]

/-- C142. -/
theorem C142_hs (lib : Lib) {M dim r : ℕ} (hM : 0 < M) {tw : Bool} (htw : tw = false → r = 1) (m : Mem) {x xn a an ac : Ref} (dt : ℝ)
    (hx : Fits m x tw r (M * dim)) (hxn : Fits m xn tw r (M * dim)) (ha : Fits m a tw r dim) (han : Fits m an tw r dim) (hac : Fits m ac tw r dim)
    (hfl : (m.cells x.id).int = false) :
    ∃ out m', hsM lib M m x xn a an dt ac = .ok (out, m') ∧ (∀ k < m.next, m'.cells k = m.cells k) ∧
      out.two = tw ∧ out.rows = r ∧ out.cols = M * dim ∧ ∀ p < M, ∀ i < r, ∀ j < dim, out.val i (dim * p + j) =
        hsMRestr M (fun p => (m.read x).val i (dim * p + j)) (fun p => (m.read xn).val i (dim * p + j))
          ((m.read a).val i j) ((m.read an).val i j) dt ((m.read ac).val i j) p := by
  obtain ⟨out, m', e, h1, h2, h3⟩ := hsM_ok lib hM htw m dt hx hxn ha han hac
  refine ⟨out, m', e, h1, h2.two, h2.rows, h2.cols, fun p hp i hi j hj => ?_⟩
  rw [h3 p hp i hi j hj, hfl, acc_float]
  have : ∀ q, q + M - (M - p) = q + p := fun q => by omega
  simp only [hsMRestr, smul_eq_mul, this]

/-- C142. -/
theorem C142_half (lib : Lib) {M dim r : ℕ} (hM : 0 < M) {tw : Bool} (htw : tw = false → r = 1) (m : Mem) {x xn a an : Ref} (dt : ℝ)
    (hx : Fits m x tw r (M * dim)) (hxn : Fits m xn tw r (M * dim)) (ha : Fits m a tw r dim) (han : Fits m an tw r dim)
    (hfl : (m.cells x.id).int = false) :
    ∃ out m', hsMHalf lib M m x xn a an dt = .ok (out, m') ∧ (∀ k < m.next, m'.cells k = m.cells k) ∧
      out.two = tw ∧ out.rows = r ∧ out.cols = M * dim ∧ ∀ p < M, ∀ i < r, ∀ j < dim, out.val i (dim * p + j) =
        hsMHalfX M (fun p => (m.read x).val i (dim * p + j)) (fun p => (m.read xn).val i (dim * p + j))
          ((m.read a).val i j) ((m.read an).val i j) dt p := by
  obtain ⟨out, m', e, h1, h2, h3⟩ := hsMHalf_ok lib hM htw m dt hx hxn ha han
  refine ⟨out, m', e, h1, h2.two, h2.rows, h2.cols, fun p hp i hi j hj => ?_⟩
  rw [h3 p hp i hi j hj, hfl, acc_float]
  have : ∀ q, q + M - (M - p) = q + p := fun q => by omega
  simp only [hsMHalfX, smul_eq_mul, this]

/-! #### Arrays of integers -/

/-- A memory with four arrays. -/
def four (c0 c1 c2 c3 : Cell) : Mem := ⟨fun k => if k = 0 then c0 else if k = 1 then c1 else if k = 2 then c2 else c3, 4⟩

/-- C142 is false of states with integers: what is stored in a copy of them loses its decimals. -/
theorem C142_int_refuted :
    ∃ (m : Mem) (x xn a an : Ref), Fits m x false 1 (1 * 1) ∧ Fits m xn false 1 (1 * 1) ∧ Fits m a false 1 1 ∧ Fits m an false 1 1 ∧
      ∃ out m', trapzM .numpy 1 m x xn a an 1 = .ok (out, m') ∧ out.val 0 (1 * 0 + 0) ≠
        trapzMRestr 1 (fun p => (m.read x).val 0 (1 * p + 0)) (fun p => (m.read xn).val 0 (1 * p + 0)) ((m.read a).val 0 0) ((m.read an).val 0 0) 1 0 := by
  obtain ⟨m, hm⟩ : ∃ m, m = four ⟨false, 1, 1, true, fun _ _ => 0⟩ ⟨false, 1, 1, false, fun _ _ => 1⟩ ⟨false, 1, 1, false, fun _ _ => 1 / 2⟩
    ⟨false, 1, 1, false, fun _ _ => 1 / 2⟩ := ⟨_, rfl⟩
  have h0 : Fits m ⟨0, 0, 1⟩ false 1 (1 * 1) := by subst hm; exact ⟨by simp [four], rfl, rfl, rfl⟩
  have h1 : Fits m ⟨1, 0, 1⟩ false 1 (1 * 1) := by subst hm; exact ⟨by simp [four], rfl, rfl, rfl⟩
  have h2 : Fits m ⟨2, 0, 1⟩ false 1 1 := by subst hm; exact ⟨by simp [four], rfl, rfl, rfl⟩
  have h3 : Fits m ⟨3, 0, 1⟩ false 1 1 := by subst hm; exact ⟨by simp [four], rfl, rfl, rfl⟩
  refine ⟨m, ⟨0, 0, 1⟩, ⟨1, 0, 1⟩, ⟨2, 0, 1⟩, ⟨3, 0, 1⟩, h0, h1, h2, h3, ?_⟩
  obtain ⟨out, m', e, -, -, h⟩ := trapzM_ok .numpy (M := 1) (by omega) (fun _ => rfl) m 1 h0 h1 h2 h3
  refine ⟨out, m', e, ?_⟩
  rw [h 0 (by omega) 0 (by omega) 0 (by omega)]
  have ht : trunc (1 / 2) = 0 := by
    rw [trunc, if_pos (by norm_num)]
    have : ⌊(1 / 2 : ℝ)⌋ = 0 := by
      rw [Int.floor_eq_iff]
      norm_num
    rw [this]
    simp
  have ht0 : trunc 0 = 0 := by simp [trunc]
  subst hm
  have hsum : (2 : ℝ)⁻¹ + 2⁻¹ = 1 := by norm_num
  have ht' : trunc (2⁻¹ : ℝ) = 0 := by rw [← one_div]; exact ht
  simp [four, Mem.read, acc, store, trapzMRestr, hsum, ht', ht0]
  norm_num

/-! #### Examples -/

/-- Four rows of two coordinates and two derivatives, in both libraries. -/
example (lib : Lib) : ∃ out m', trapzM lib 2 (four ⟨true, 4, 4, false, fun i j => i + j⟩ ⟨true, 4, 4, false, fun _ _ => 0⟩ ⟨true, 4, 2, false, fun i _ => i⟩
    ⟨true, 4, 2, true, fun _ _ => 1⟩) ⟨0, 0, 4⟩ ⟨1, 0, 4⟩ ⟨2, 0, 2⟩ ⟨3, 0, 2⟩ 1 = .ok (out, m') ∧ out.val 3 (2 * 0 + 1) = -(7 / 6 + 4 + 6) := by
  obtain ⟨out, m', e, -, -, -, -, h⟩ := C142_trapz lib (M := 2) (dim := 2) (r := 4) (tw := true) (by omega) (by simp)
    (four ⟨true, 4, 4, false, fun i j => i + j⟩ ⟨true, 4, 4, false, fun _ _ => 0⟩ ⟨true, 4, 2, false, fun i _ => i⟩ ⟨true, 4, 2, true, fun _ _ => 1⟩)
    (x := ⟨0, 0, 4⟩) (xn := ⟨1, 0, 4⟩) (a := ⟨2, 0, 2⟩) (an := ⟨3, 0, 2⟩) 1 ⟨by simp [four], rfl, rfl, rfl⟩ ⟨by simp [four], rfl, rfl, rfl⟩
    ⟨by simp [four], rfl, rfl, rfl⟩ ⟨by simp [four], rfl, rfl, rfl⟩ rfl
  refine ⟨out, m', e, (h 0 (by omega) 3 (by omega) 1 (by omega)).trans ?_⟩
  simp [trapzMRestr, four, Mem.read, Finset.sum_range_succ, Nat.factorial]
  norm_num

end Chords.Props
