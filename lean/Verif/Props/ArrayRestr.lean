import Verif.Model.ArrayRestr
import Verif.Props.ArrayProgs

/-! # Other restrictions on arrays: C143 -/

namespace Chords.Props
open ArrayProgs

/-! ### Slices -/

theorem vecLen_row {c : Cell} {tw : Bool} {n : ℕ} {f : ℕ → ℕ → ℝ} (h : Holds c tw 1 n f) : vecLen c = n := by
  rw [vecLen, h.rows, h.cols]
  split_ifs <;> omega

theorem order_row {x a : Cell} {tw tw' : Bool} {M dim : ℕ} (hd : 0 < dim) {f g : ℕ → ℕ → ℝ} (hx : Holds x tw 1 (M * dim) f) (ha : Holds a tw' 1 dim g) :
    orderFromXA x a = .ok M := by
  rw [orderFromXA, vecLen_row hx, vecLen_row ha, floorDiv, if_neg (by omega), Nat.mul_div_cancel _ hd]

theorem index_row {x : Cell} {tw : Bool} {M dim : ℕ} (hM : 0 < M) {f : ℕ → ℕ → ℝ} (hx : Holds x tw 1 (M * dim) f) : indexDiv x M = .ok ⟨dim⟩ := by
  rw [indexDiv, vecLen_row hx, floorDiv, if_neg (by omega), Nat.mul_div_cancel_left _ hM]
  rfl

theorem le_block {M dim : ℕ} (hM : 0 < M) : dim ≤ M * dim := Nat.le_mul_of_pos_left _ hM

theorem last_eq {M dim : ℕ} (hM : 0 < M) (hd : 0 < dim) : Cuts.last ⟨dim⟩ (M * dim) = ⟨M * dim - dim, dim⟩ := by
  have := le_block (dim := dim) hM
  simp only [Cuts.last]
  rw [if_neg (by omega)]
  congr
  omega

theorem first_eq {M dim : ℕ} (hM : 0 < M) : Cuts.first ⟨dim⟩ (M * dim) = ⟨0, dim⟩ := by
  simp [Cuts.first, le_block hM]

theorem allButFirst_eq {M dim : ℕ} (hM : 0 < M) : Cuts.allButFirst ⟨dim⟩ (M * dim) = ⟨dim, M * dim - dim⟩ := by
  simp [Cuts.allButFirst, le_block hM]

theorem allButLast_eq {n dim : ℕ} (hd : 0 < dim) : Cuts.allButLast ⟨dim⟩ n = ⟨0, n - dim⟩ := by
  simp only [Cuts.allButLast]
  rw [if_neg (by omega)]

theorem pick_holds {c : Cell} {tw : Bool} {r n : ℕ} {f : ℕ → ℕ → ℝ} (h : Holds c tw r n f) {k : ℕ → Cut} {lo w : ℕ} (hk : k n = ⟨lo, w⟩) (hw : lo + w ≤ n) :
    Holds (pick c k) tw r w fun i j => f i (lo + j) := by
  refine ⟨h.two, h.rows, ?_, fun i hi j hj => ?_⟩
  · simp only [pick]
    rw [h.cols, hk]
  · simp only [pick]
    rw [h.cols, hk]
    exact h.val i hi _ (by dsimp only; omega)

theorem put_holds (lib : Lib) {c v : Cell} {tw tw' : Bool} {r n : ℕ} {f g : ℕ → ℕ → ℝ} (h : Holds c tw r n f) (hi : c.int = false) {k : ℕ → Cut} {lo w : ℕ}
    (hk : k n = ⟨lo, w⟩) (hw : lo + w ≤ n) (hv : Holds v tw' r w g) :
    ∃ d, put lib c k v = .ok d ∧ d.int = false ∧ Holds d tw r n fun i j => if lo ≤ j ∧ j < lo + w then g i (j - lo) else f i j := by
  have hs : storable lib v c.rows (k c.cols).width := by
    rw [h.cols, hk, h.rows]
    cases lib
    · exact ⟨.inl hv.rows, .inl hv.cols⟩
    · exact .inl ⟨hv.rows, hv.cols⟩
  refine ⟨{ c with val := fun i j => if (k c.cols).lo ≤ j ∧ j < (k c.cols).lo + (k c.cols).width then store c.int (v.get i (j - (k c.cols).lo)) else c.val i j },
    by simp only [put, if_pos hs], hi, h.two, h.rows, h.cols, fun i hi' j hj => ?_⟩
  dsimp only
  rw [h.cols, hk, hi]
  dsimp only
  by_cases hb : lo ≤ j ∧ j < lo + w
  · rw [if_pos hb, if_pos hb, get_eq v (hv.rows ▸ hi') (by rw [hv.cols]; omega), hv.val i hi' _ (by omega)]
    rfl
  · rw [if_neg hb, if_neg hb, h.val i hi' j hj]

theorem add_holds (lib : Lib) {A B : Cell} {tw : Bool} {r n : ℕ} {f g : ℕ → ℕ → ℝ} (hA : Holds A tw r n f) (hB : Holds B tw r n g) :
    ∃ C, add lib A B = .ok C ∧ Holds C tw r n fun i j => f i j + g i j := by
  obtain ⟨C, e, h⟩ := bop_holds lib (· + ·) hA hB
  exact ⟨C, by rw [add, e]; rfl, h⟩

theorem sub_holds (lib : Lib) {A B : Cell} {tw : Bool} {r n : ℕ} {f g : ℕ → ℕ → ℝ} (hA : Holds A tw r n f) (hB : Holds B tw r n g) :
    ∃ C, sub lib A B = .ok C ∧ Holds C tw r n fun i j => f i j - g i j := by
  obtain ⟨C, e, h⟩ := bop_holds lib (· - ·) hA hB
  exact ⟨C, by rw [sub, e]; rfl, h⟩

/-- The derivative of a state. -/
theorem shifted_holds (lib : Lib) {x y a : Cell} {tw : Bool} {r M dim : ℕ} (hM : 0 < M) (hd : 0 < dim) {f g h : ℕ → ℕ → ℝ} (hx : Holds x tw r (M * dim) f)
    (hi : x.int = false) (hy : Holds y tw r (M * dim) g) (ha : Holds a tw r dim h) :
    ∃ d, shifted lib ⟨dim⟩ x y a = .ok d ∧ Holds d tw r (M * dim) fun i c => if c < M * dim - dim then g i (dim + c) else h i (c - (M * dim - dim)) := by
  have hle := le_block (dim := dim) hM
  have hp := pick_holds hy (allButFirst_eq hM) (by omega)
  obtain ⟨d, e, hdi, hdh⟩ := put_holds lib hx hi (allButLast_eq hd) (by omega) hp
  obtain ⟨d2, e2, -, hdh2⟩ := put_holds lib hdh hdi (last_eq hM hd) (by omega) ha
  refine ⟨d2, by simp only [shifted, bind, Except.bind, e, e2], hdh2.two, hdh2.rows, hdh2.cols, fun i hi j hj => ?_⟩
  rw [hdh2.val i hi j hj]
  by_cases hc : j < M * dim - dim
  · rw [if_neg (by omega), if_pos (by omega), if_pos hc, Nat.sub_zero]
  · rw [if_pos (by omega), if_neg hc]

/-- The derivative of a state at division `p`. -/
theorem shifted_block {M dim p j : ℕ} (hp : p < M) (hj : j < dim) (g h : ℕ → ℝ) :
    (if dim * p + j < M * dim - dim then g (dim + (dim * p + j)) else h (dim * p + j - (M * dim - dim))) =
      shiftIn M (fun p => g (dim * p + j)) (h j) p := by
  rw [shiftIn]
  by_cases hc : p + 1 < M
  · have : dim * (p + 2) ≤ dim * M := Nat.mul_le_mul_left _ (by omega)
    rw [Nat.mul_add] at this
    rw [Nat.mul_comm M, if_pos (by omega), if_pos hc]
    congr 1
    ring
  · obtain rfl : M = p + 1 := by omega
    have : (p + 1) * dim - dim = dim * p := by rw [Nat.add_mul, Nat.mul_comm]; omega
    rw [this, if_neg (by omega), if_neg (by omega), Nat.add_sub_cancel_left]

/-! ### C143: the functions on arrays of floats with one row -/

variable (lib : Lib) {tw : Bool} {M dim : ℕ} {x xn a an ac : Cell} {X Xn A An Ac : ℕ → ℝ} (dt : ℝ)

/-- A row with some entries. -/
def Row (c : Cell) (tw : Bool) (n : ℕ) (f : ℕ → ℝ) : Prop := c.two = tw ∧ c.rows = 1 ∧ c.cols = n ∧ ∀ j < n, c.val 0 j = f j

theorem Row.holds {c : Cell} {n : ℕ} {f : ℕ → ℝ} (h : Row c tw n f) : Holds c tw 1 n fun _ j => f j :=
  ⟨h.1, h.2.1, h.2.2.1, fun i hi j hj => by
    obtain rfl : i = 0 := by omega
    exact h.2.2.2 j hj⟩

theorem Holds.row {c : Cell} {n : ℕ} {f : ℕ → ℕ → ℝ} (h : Holds c tw 1 n f) {g : ℕ → ℝ} (hg : ∀ j < n, f 0 j = g j) : Row c tw n g :=
  ⟨h.two, h.rows, h.cols, fun j hj => (h.val 0 (by omega) j hj).trans (hg j hj)⟩

/-- C143. -/
theorem C143_euler (hM : 0 < M) (hd : 0 < dim) (hx : Row x tw (M * dim) X) (hxn : Row xn tw (M * dim) Xn) (ha : Row a tw dim A) (hfl : x.int = false) :
    ∃ out, eulerA lib x xn a an dt = .ok out ∧ out.two = tw ∧ out.rows = 1 ∧ out.cols = M * dim ∧ ∀ p < M, ∀ j < dim, out.val 0 (dim * p + j) =
      eulerAccelRestr M (fun p => X (dim * p + j)) (fun p => Xn (dim * p + j)) (A j) (An j) dt p := by
  obtain ⟨d, e1, h1⟩ := shifted_holds lib hM hd hx.holds hfl hx.holds ha.holds
  obtain ⟨s, e2, h2⟩ := add_holds lib hx.holds (scale_holds dt h1)
  obtain ⟨o, e3, h3⟩ := sub_holds lib hxn.holds h2
  refine ⟨o, ?_, h3.two, h3.rows, h3.cols, fun p hp j hj => ?_⟩
  · simp only [eulerA, bind, Except.bind, order_row hd hx.holds ha.holds, index_row hM hx.holds, e1, e2, e3]
  · rw [h3.val 0 (by omega) _ (block_lt hp hj), eulerAccelRestr, shifted_block hp hj X A]
    rfl

/-- C143. -/
theorem C143_trapz (hM : 0 < M) (hd : 0 < dim) (hx : Row x tw (M * dim) X) (hxn : Row xn tw (M * dim) Xn) (ha : Row a tw dim A) (han : Row an tw dim An)
    (hfl : x.int = false) :
    ∃ out, trapzA lib x xn a an dt = .ok out ∧ out.two = tw ∧ out.rows = 1 ∧ out.cols = M * dim ∧ ∀ p < M, ∀ j < dim, out.val 0 (dim * p + j) =
      trapzAccelRestr M (fun p => X (dim * p + j)) (fun p => Xn (dim * p + j)) (A j) (An j) dt p := by
  obtain ⟨d, e1, h1⟩ := shifted_holds lib hM hd hx.holds hfl hx.holds ha.holds
  obtain ⟨d', e1', h1'⟩ := shifted_holds lib hM hd hx.holds hfl hxn.holds han.holds
  obtain ⟨t, e4, h4⟩ := add_holds lib h1 h1'
  obtain ⟨s, e2, h2⟩ := add_holds lib hx.holds (scale_holds (dt / 2) h4)
  obtain ⟨o, e3, h3⟩ := sub_holds lib hxn.holds h2
  refine ⟨o, ?_, h3.two, h3.rows, h3.cols, fun p hp j hj => ?_⟩
  · simp only [trapzA, bind, Except.bind, order_row hd hx.holds ha.holds, index_row hM hx.holds, e1, e1', e2, e3, e4]
  · rw [h3.val 0 (by omega) _ (block_lt hp hj), trapzAccelRestr, shifted_block hp hj X A, shifted_block hp hj Xn An]
    rfl

theorem hsHalf_holds (hM : 0 < M) (hd : 0 < dim) (hx : Row x tw (M * dim) X) (hxn : Row xn tw (M * dim) Xn) (ha : Row a tw dim A) (han : Row an tw dim An)
    (hfl : x.int = false) :
    ∃ out, hsHalfA lib x xn a an dt = .ok out ∧ ∃ f, Holds out tw 1 (M * dim) f ∧ ∀ p < M, ∀ j < dim, f 0 (dim * p + j) =
      hsHalfX M (fun p => X (dim * p + j)) (fun p => Xn (dim * p + j)) (A j) (An j) dt p := by
  obtain ⟨d, e1, h1⟩ := shifted_holds lib hM hd hx.holds hfl hx.holds ha.holds
  obtain ⟨d', e1', h1'⟩ := shifted_holds lib hM hd hx.holds hfl hxn.holds han.holds
  obtain ⟨t, e4, h4⟩ := sub_holds lib h1 h1'
  obtain ⟨s, e2, h2⟩ := add_holds lib hx.holds hxn.holds
  obtain ⟨o, e3, h3⟩ := add_holds lib (scale_holds (1 / 2) h2) (scale_holds (dt / 8) h4)
  refine ⟨o, ?_, _, h3, fun p hp j hj => ?_⟩
  · simp only [hsHalfA, bind, Except.bind, order_row hd hx.holds ha.holds, index_row hM hx.holds, e1, e1', e2, e3, e4]
  · rw [hsHalfX, shifted_block hp hj X A, shifted_block hp hj Xn An]
    rfl

/-- C143. -/
theorem C143_hs_half (hM : 0 < M) (hd : 0 < dim) (hx : Row x tw (M * dim) X) (hxn : Row xn tw (M * dim) Xn) (ha : Row a tw dim A) (han : Row an tw dim An)
    (hfl : x.int = false) :
    ∃ out, hsHalfA lib x xn a an dt = .ok out ∧ out.two = tw ∧ out.rows = 1 ∧ out.cols = M * dim ∧ ∀ p < M, ∀ j < dim, out.val 0 (dim * p + j) =
      hsHalfX M (fun p => X (dim * p + j)) (fun p => Xn (dim * p + j)) (A j) (An j) dt p := by
  obtain ⟨o, e, f, h, hf⟩ := hsHalf_holds lib dt hM hd hx hxn ha han hfl
  exact ⟨o, e, h.two, h.rows, h.cols, fun p hp j hj => by rw [h.val 0 (by omega) _ (block_lt hp hj), hf p hp j hj]⟩

/-- C143. -/
theorem C143_hs (hM : 0 < M) (hd : 0 < dim) (hx : Row x tw (M * dim) X) (hxn : Row xn tw (M * dim) Xn) (ha : Row a tw dim A) (han : Row an tw dim An)
    (hac : Row ac tw dim Ac) (hfl : x.int = false) :
    ∃ out, hsA lib x xn a an dt ac = .ok out ∧ out.two = tw ∧ out.rows = 1 ∧ out.cols = M * dim ∧ ∀ p < M, ∀ j < dim, out.val 0 (dim * p + j) =
      hsAccelRestr M (fun p => X (dim * p + j)) (fun p => Xn (dim * p + j)) (A j) (An j) dt (Ac j) p := by
  obtain ⟨d, e1, h1⟩ := shifted_holds lib hM hd hx.holds hfl hx.holds ha.holds
  obtain ⟨d', e1', h1'⟩ := shifted_holds lib hM hd hx.holds hfl hxn.holds han.holds
  obtain ⟨c, e5, f, h5, hf⟩ := hsHalf_holds lib dt hM hd hx hxn ha han hfl
  obtain ⟨c', e6, h6⟩ := shifted_holds lib hM hd hx.holds hfl h5 hac.holds
  obtain ⟨t, e4, h4⟩ := add_holds lib h1 (scale_holds 4 h6)
  obtain ⟨s, e2, h2⟩ := add_holds lib h4 h1'
  obtain ⟨w, e7, h7⟩ := add_holds lib hx.holds (scale_holds (dt / 6) h2)
  obtain ⟨o, e3, h3⟩ := sub_holds lib hxn.holds h7
  refine ⟨o, ?_, h3.two, h3.rows, h3.cols, fun p hp j hj => ?_⟩
  · simp only [hsA, bind, Except.bind, order_row hd hx.holds ha.holds, index_row hM hx.holds, e1, e1', e2, e3, e4, e5, e6, e7]
  · rw [h3.val 0 (by omega) _ (block_lt hp hj), hsAccelRestr, shifted_block hp hj X A, shifted_block hp hj Xn An, shifted_block hp hj (f 0) Ac]
    have : shiftIn M (fun p => f 0 (dim * p + j)) (Ac j) p =
        shiftIn M (hsHalfX M (fun p => X (dim * p + j)) (fun p => Xn (dim * p + j)) (A j) (An j) dt) (Ac j) p := by
      rw [shiftIn, shiftIn]
      split_ifs with hc
      · rw [hf _ hc j hj]
      · rfl
    rw [this]
    rfl

/-! #### Functions of second order -/

/-- The halves of a state. -/
theorem halves {c : Cell} {X : ℕ → ℝ} (hd : 0 < dim) (h : Row c tw (2 * dim) X) :
    Holds (pick c (Cuts.first ⟨dim⟩)) tw 1 dim (fun _ j => X j) ∧ Holds (pick c (Cuts.last ⟨dim⟩)) tw 1 dim fun _ j => X (dim + j) := by
  have h1 := pick_holds h.holds (first_eq (M := 2) (by omega)) (by omega)
  have h2 := pick_holds h.holds (last_eq (M := 2) (by omega) hd) (by omega)
  simp only [Nat.zero_add] at h1
  rw [show 2 * dim - dim = dim by omega] at h2
  exact ⟨h1, h2⟩

/-- Storing the two halves of a state, the last one first. -/
theorem put_last_first {q v : Cell} (hd : 0 < dim) (hx : Row x tw (2 * dim) X) (hfl : x.int = false) {f g : ℕ → ℕ → ℝ} (hq : Holds q tw 1 dim f)
    (hv : Holds v tw 1 dim g) :
    ∃ d d', put lib x (Cuts.last ⟨dim⟩) v = .ok d ∧ put lib d (Cuts.first ⟨dim⟩) q = .ok d' ∧
      Holds d' tw 1 (2 * dim) fun i j => if j < dim then f i j else g i (j - dim) := by
  obtain ⟨d, e, hi, h⟩ := put_holds lib hx.holds hfl (last_eq (M := 2) (by omega) hd) (by omega) hv
  obtain ⟨d', e', -, h'⟩ := put_holds lib h hi (first_eq (M := 2) (by omega)) (by omega) hq
  refine ⟨d, d', e, e', h'.two, h'.rows, h'.cols, fun i hi j hj => ?_⟩
  rw [h'.val i hi j hj]
  by_cases hc : j < dim
  · rw [if_pos (by omega), if_pos hc, Nat.sub_zero]
  · rw [if_neg (by omega), if_pos (by omega), if_neg hc, show 2 * dim - dim = dim by omega]

/-- Storing the two halves of a state, the first one first. -/
theorem put_first_last {q v : Cell} (hd : 0 < dim) (hx : Row x tw (2 * dim) X) (hfl : x.int = false) {f g : ℕ → ℕ → ℝ} (hq : Holds q tw 1 dim f)
    (hv : Holds v tw 1 dim g) :
    ∃ d d', put lib x (Cuts.first ⟨dim⟩) q = .ok d ∧ put lib d (Cuts.last ⟨dim⟩) v = .ok d' ∧
      Holds d' tw 1 (2 * dim) fun i j => if j < dim then f i j else g i (j - dim) := by
  obtain ⟨d, e, hi, h⟩ := put_holds lib hx.holds hfl (first_eq (M := 2) (by omega)) (by omega) hq
  obtain ⟨d', e', -, h'⟩ := put_holds lib h hi (last_eq (M := 2) (by omega) hd) (by omega) hv
  refine ⟨d, d', e, e', h'.two, h'.rows, h'.cols, fun i hi j hj => ?_⟩
  rw [h'.val i hi j hj]
  by_cases hc : j < dim
  · rw [if_neg (by omega), if_pos (by omega), if_pos hc, Nat.sub_zero]
  · rw [if_pos (by omega), if_neg hc, show 2 * dim - dim = dim by omega]

/-- The entries of an array with two halves. -/
theorem two_vals {o : Cell} {f g : ℕ → ℝ} {j : ℕ} (hj : j < dim) {F : ℕ → ℕ → ℝ} (h : Holds o tw 1 (2 * dim) F) (h1 : F 0 j = f j) (h2 : F 0 (dim + j) = g j) :
    (o.val 0 j, o.val 0 (dim + j)) = (f j, g j) := by
  rw [h.val 0 (by omega) j (by omega), h.val 0 (by omega) (dim + j) (by omega), h1, h2]

/-- C143. -/
theorem C143_trapz_mod (hd : 0 < dim) (hx : Row x tw (2 * dim) X) (hxn : Row xn tw (2 * dim) Xn) (ha : Row a tw dim A) (han : Row an tw dim An) (hfl : x.int = false) :
    ∃ out, trapzModA lib x xn a an dt = .ok out ∧ out.two = tw ∧ out.rows = 1 ∧ out.cols = 2 * dim ∧ ∀ j < dim, (out.val 0 j, out.val 0 (dim + j)) =
      trapzModAccelRestr (X j, X (dim + j)) (Xn j, Xn (dim + j)) (A j) (An j) dt := by
  obtain ⟨hq, hv⟩ := halves hd hx
  obtain ⟨s1, e1, h1⟩ := add_holds lib ha.holds han.holds
  obtain ⟨s2, e2, h2⟩ := add_holds lib hv (scale_holds (dt / 2) h1)
  obtain ⟨s3, e3, h3⟩ := add_holds lib hq (scale_holds dt hv)
  obtain ⟨s4, e4, h4⟩ := add_holds lib han.holds (scale_holds 2 ha.holds)
  obtain ⟨s5, e5, h5⟩ := add_holds lib h3 (scale_holds (dt ^ 2 / 6) h4)
  obtain ⟨d, d', e6, e7, h6⟩ := put_last_first lib hd hx hfl h5 h2
  obtain ⟨o, e8, h8⟩ := sub_holds lib hxn.holds h6
  refine ⟨o, ?_, h8.two, h8.rows, h8.cols, fun j hj => ?_⟩
  · simp only [trapzModA, bind, Except.bind, index_row (M := 2) (by omega) hx.holds, e1, e2, e3, e4, e5, e6, e7, e8]
  · rw [h8.val 0 (by omega) j (by omega), h8.val 0 (by omega) (dim + j) (by omega)]
    simp [trapzModAccelRestr, hj]

/-- C143. -/
theorem C143_hs_mod_half (hd : 0 < dim) (hx : Row x tw (2 * dim) X) (hxn : Row xn tw (2 * dim) Xn) (ha : Row a tw dim A) (han : Row an tw dim An)
    (hfl : x.int = false) :
    ∃ out, hsModHalfA lib x xn a an dt = .ok out ∧ out.two = tw ∧ out.rows = 1 ∧ out.cols = 2 * dim ∧ ∀ j < dim, (out.val 0 j, out.val 0 (dim + j)) =
      hsModHalfX (X j, X (dim + j)) (Xn j, Xn (dim + j)) (A j) (An j) dt := by
  obtain ⟨hq, hv⟩ := halves hd hx
  obtain ⟨-, hvn⟩ := halves hd hxn
  obtain ⟨s1, e1, h1⟩ := add_holds lib (scale_holds 13 hv) (scale_holds 3 hvn)
  obtain ⟨s2, e2, h2⟩ := add_holds lib hq (scale_holds (dt / 32) h1)
  obtain ⟨s3, e3, h3⟩ := sub_holds lib (scale_holds 11 ha.holds) (scale_holds 5 han.holds)
  obtain ⟨s4, e4, h4⟩ := add_holds lib h2 (scale_holds (dt ^ 2 / 192) h3)
  obtain ⟨s5, e5, h5⟩ := add_holds lib hv hvn
  obtain ⟨s6, e6, h6⟩ := sub_holds lib ha.holds han.holds
  obtain ⟨s7, e7, h7⟩ := add_holds lib (scale_holds (1 / 2) h5) (scale_holds (dt / 8) h6)
  obtain ⟨d, o, e8, e9, h8⟩ := put_first_last lib hd hx hfl h4 h7
  refine ⟨o, ?_, h8.two, h8.rows, h8.cols, fun j hj => ?_⟩
  · simp only [hsModHalfA, bind, Except.bind, index_row (M := 2) (by omega) hx.holds, e1, e2, e3, e4, e5, e6, e7, e8, e9]
  · rw [h8.val 0 (by omega) j (by omega), h8.val 0 (by omega) (dim + j) (by omega)]
    simp [hsModHalfX, hj]

/-- C143. -/
theorem C143_hs_mod (hd : 0 < dim) (hx : Row x tw (2 * dim) X) (hxn : Row xn tw (2 * dim) Xn) (ha : Row a tw dim A) (han : Row an tw dim An)
    (hac : Row ac tw dim Ac) (hfl : x.int = false) :
    ∃ out, hsModA lib x xn a an dt ac = .ok out ∧ out.two = tw ∧ out.rows = 1 ∧ out.cols = 2 * dim ∧ ∀ j < dim, (out.val 0 j, out.val 0 (dim + j)) =
      hsModAccelRestr (X j, X (dim + j)) (Xn j, Xn (dim + j)) (A j) (An j) dt (Ac j) := by
  obtain ⟨hq, hv⟩ := halves hd hx
  obtain ⟨s1, e1, h1⟩ := add_holds lib ha.holds (scale_holds 4 hac.holds)
  obtain ⟨s2, e2, h2⟩ := add_holds lib h1 han.holds
  obtain ⟨s3, e3, h3⟩ := add_holds lib hv (scale_holds (dt / 6) h2)
  obtain ⟨s4, e4, h4⟩ := add_holds lib hq (scale_holds dt hv)
  obtain ⟨s5, e5, h5⟩ := add_holds lib ha.holds (scale_holds 2 hac.holds)
  obtain ⟨s6, e6, h6⟩ := add_holds lib h4 (scale_holds (dt ^ 2 / 6) h5)
  obtain ⟨d, d', e7, e8, h8⟩ := put_last_first lib hd hx hfl h6 h3
  obtain ⟨o, e9, h9⟩ := sub_holds lib hxn.holds h8
  refine ⟨o, ?_, h9.two, h9.rows, h9.cols, fun j hj => ?_⟩
  · simp only [hsModA, bind, Except.bind, index_row (M := 2) (by omega) hx.holds, e1, e2, e3, e4, e5, e6, e7, e8, e9]
  · rw [h9.val 0 (by omega) j (by omega), h9.val 0 (by omega) (dim + j) (by omega)]
    simp [hsModAccelRestr, hj]

/-- C143. -/
theorem C143_hsj_half (hd : 0 < dim) (hx : Row x tw (2 * dim) X) (hxn : Row xn tw (2 * dim) Xn) (ha : Row a tw dim A) (han : Row an tw dim An)
    (hfl : x.int = false) :
    ∃ out, hsjHalfA lib x xn a an dt = .ok out ∧ out.two = tw ∧ out.rows = 1 ∧ out.cols = 2 * dim ∧ ∀ j < dim, (out.val 0 j, out.val 0 (dim + j)) =
      hsjHalfX (X j, X (dim + j)) (Xn j, Xn (dim + j)) (A j) (An j) dt := by
  obtain ⟨hq, hv⟩ := halves hd hx
  obtain ⟨hqn, hvn⟩ := halves hd hxn
  obtain ⟨s1, e1, h1⟩ := add_holds lib (scale_holds 561 hq) (scale_holds 64 hqn)
  obtain ⟨s2, e2, h2⟩ := add_holds lib h1 (scale_holds (186 * dt) hv)
  obtain ⟨s3, e3, h3⟩ := sub_holds lib (scale_holds 22 ha.holds) (scale_holds 4 han.holds)
  obtain ⟨s4, e4, h4⟩ := add_holds lib h2 (scale_holds (dt ^ 2) h3)
  obtain ⟨s5, e5, h5⟩ := add_holds lib (scale_holds 81 hv) (scale_holds 44 hvn)
  obtain ⟨s6, e6, h6⟩ := sub_holds lib (scale_holds 18 ha.holds) (scale_holds 12 han.holds)
  obtain ⟨s7, e7, h7⟩ := add_holds lib (scale_holds (1 / 125) h5) (scale_holds (dt / 125) h6)
  obtain ⟨d, o, e8, e9, h8⟩ := put_first_last lib hd hx hfl (scale_holds (1 / 625) h4) h7
  refine ⟨o, ?_, h8.two, h8.rows, h8.cols, fun j hj => ?_⟩
  · simp only [hsjHalfA, bind, Except.bind, index_row (M := 2) (by omega) hx.holds, e1, e2, e3, e4, e5, e6, e7, e8, e9]
  · rw [h8.val 0 (by omega) j (by omega), h8.val 0 (by omega) (dim + j) (by omega)]
    simp [hsjHalfX, hj]

/-- C143. -/
theorem C143_hsj (hd : 0 < dim) (hx : Row x tw (2 * dim) X) (hxn : Row xn tw (2 * dim) Xn) (ha : Row a tw dim A) (han : Row an tw dim An)
    (hac : Row ac tw dim Ac) (hfl : x.int = false) :
    ∃ out, hsjA lib x xn a an dt ac = .ok out ∧ out.two = tw ∧ out.rows = 1 ∧ out.cols = 2 * dim ∧ ∀ j < dim, (out.val 0 j, out.val 0 (dim + j)) =
      hsjAccelRestr (X j, X (dim + j)) (Xn j, Xn (dim + j)) (A j) (An j) dt (Ac j) := by
  obtain ⟨hq, hv⟩ := halves hd hx
  obtain ⟨s1, e1, h1⟩ := add_holds lib (scale_holds 3 ha.holds) (scale_holds 25 hac.holds)
  obtain ⟨s2, e2, h2⟩ := add_holds lib h1 (scale_holds 8 han.holds)
  obtain ⟨s3, e3, h3⟩ := add_holds lib hv (scale_holds (dt / 36) h2)
  obtain ⟨s4, e4, h4⟩ := add_holds lib hq (scale_holds dt hv)
  obtain ⟨s5, e5, h5⟩ := add_holds lib (scale_holds 9 ha.holds) (scale_holds 25 hac.holds)
  obtain ⟨s5', e5', h5'⟩ := add_holds lib h5 (scale_holds 2 han.holds)
  obtain ⟨s6, e6, h6⟩ := add_holds lib h4 (scale_holds (dt ^ 2 / 72) h5')
  obtain ⟨d, d', e7, e8, h8⟩ := put_last_first lib hd hx hfl h6 h3
  obtain ⟨o, e9, h9⟩ := sub_holds lib hxn.holds h8
  refine ⟨o, ?_, h9.two, h9.rows, h9.cols, fun j hj => ?_⟩
  · simp only [hsjA, bind, Except.bind, index_row (M := 2) (by omega) hx.holds, e1, e2, e3, e4, e5, e5', e6, e7, e8, e9]
  · rw [h9.val 0 (by omega) j (by omega), h9.val 0 (by omega) (dim + j) (by omega)]
    simp [hsjAccelRestr, hj]

/-! #### Arrays of integers and arrays with several rows -/

omit tw M dim x xn a an ac X Xn A An Ac in
theorem trunc_half : trunc (1 / 2) = 0 := by
  rw [trunc, if_pos (by norm_num)]
  have : ⌊(1 / 2 : ℝ)⌋ = 0 := by
    rw [Int.floor_eq_iff]
    norm_num
  rw [this]
  simp

/-- C143 is false of states with integers: the accelerations stored in a copy of them lose their decimals. -/
theorem C143_int_refuted :
    ∃ (x xn a an : Cell) (X Xn A An : ℕ → ℝ), Row x false (2 * 1) X ∧ Row xn false (2 * 1) Xn ∧ Row a false 1 A ∧ Row an false 1 An ∧
      ∃ out, eulerA .numpy x xn a an 1 = .ok out ∧
        out.val 0 (1 * 1 + 0) ≠ eulerAccelRestr 2 (fun p => X (1 * p + 0)) (fun p => Xn (1 * p + 0)) (A 0) (An 0) 1 1 := by
  refine ⟨⟨false, 1, 2, true, fun _ _ => 0⟩, ⟨false, 1, 2, false, fun _ _ => 0⟩, ⟨false, 1, 1, false, fun _ _ => 1 / 2⟩, ⟨false, 1, 1, false, fun _ _ => 1 / 2⟩,
    fun _ => 0, fun _ => 0, fun _ => 1 / 2, fun _ => 1 / 2, ⟨rfl, rfl, rfl, fun _ _ => rfl⟩, ⟨rfl, rfl, rfl, fun _ _ => rfl⟩, ⟨rfl, rfl, rfl, fun _ _ => rfl⟩,
    ⟨rfl, rfl, rfl, fun _ _ => rfl⟩, ?_⟩
  have e1 : orderFromXA ⟨false, 1, 2, true, fun _ _ => 0⟩ ⟨false, 1, 1, false, fun _ _ => 1 / 2⟩ = .ok 2 := by
    simp [orderFromXA, vecLen, floorDiv]
  have e2 : indexDiv ⟨false, 1, 2, true, fun _ _ => 0⟩ 2 = .ok ⟨1⟩ := by
    simp [indexDiv, vecLen, floorDiv, bind, Except.bind, pure, Except.pure]
  refine ⟨_, by
    simp only [eulerA, bind, Except.bind, e1, e2, shifted, put, pick, Cuts.allButLast, Cuts.allButFirst, Cuts.last, storable]
    simp only [Nat.reduceSub, Nat.one_ne_zero, if_false, or_true, true_or, and_true, if_true, add, sub, lift, bop, sizes, axis, scale, bind, Except.bind, pure, Except.pure]
    rfl, ?_⟩
  simp [Cell.get, eulerAccelRestr, shiftIn, store]
  rw [← one_div, trunc_half]
  norm_num

/-- C143 is false of several rows: with four rows, which are two coordinates for `vec_len`, the velocities are not those of the scheme. -/
theorem C143_rows_refuted :
    ∃ x xn a an : Cell, x.two ∧ x.rows = 4 ∧ x.cols = 2 * 1 ∧ x.int = false ∧ xn.two ∧ xn.rows = 4 ∧ xn.cols = 2 * 1 ∧ a.two ∧ a.rows = 4 ∧ a.cols = 1 ∧ an.two ∧
      an.rows = 4 ∧ an.cols = 1 ∧
      ∃ out, trapzModA .numpy x xn a an 1 = .ok out ∧ ∀ i < 4, (out.val i 0, out.val i 1) ≠
        trapzModAccelRestr (x.val i 0, x.val i 1) (xn.val i 0, xn.val i 1) (a.val i 0) (an.val i 0) 1 := by
  refine ⟨⟨true, 4, 2, false, fun _ _ => 0⟩, ⟨true, 4, 2, false, fun _ _ => 0⟩, ⟨true, 4, 1, false, fun _ _ => 6⟩, ⟨true, 4, 1, false, fun _ _ => 6⟩,
    rfl, rfl, rfl, rfl, rfl, rfl, rfl, rfl, rfl, rfl, rfl, rfl, rfl, ?_⟩
  have e2 : indexDiv ⟨true, 4, 2, false, fun _ _ => 0⟩ 2 = .ok ⟨2⟩ := by
    simp [indexDiv, vecLen, floorDiv, bind, Except.bind, pure, Except.pure]
  refine ⟨_, by
    simp only [trapzModA, bind, Except.bind, e2, put, pick, Cuts.first, Cuts.last, storable, add, sub, lift, bop, sizes, axis, scale, pure, Except.pure,
      Nat.reduceSub, OfNat.ofNat_ne_zero, if_false, if_true, Nat.reduceEqDiff, min_self, or_true, true_or, and_true]
    rfl, fun i _ => ?_⟩
  simp [trapzModAccelRestr, Cell.get, store]
  norm_num

/-! #### Examples -/

/-- A state of a system with two coordinates, as an array with one axis and as a matrix with one row. -/
example (lib : Lib) (tw : Bool) : ∃ out, trapzModA lib ⟨tw, 1, 4, false, fun _ j => j⟩ ⟨tw, 1, 4, false, fun _ j => j + 1⟩ ⟨tw, 1, 2, false, fun _ j => 6 * j⟩
    ⟨tw, 1, 2, false, fun _ _ => 6⟩ 1 = .ok out ∧ (out.val 0 1, out.val 0 3) = (2 - (1 + 3 + 3), 4 - (3 + 6)) := by
  obtain ⟨out, e, -, -, -, h⟩ := C143_trapz_mod (tw := tw) (dim := 2) (x := ⟨tw, 1, 4, false, fun _ j => j⟩) (X := fun j => j) (xn := ⟨tw, 1, 4, false, fun _ j => j + 1⟩)
    (Xn := fun j => j + 1) (a := ⟨tw, 1, 2, false, fun _ j => 6 * j⟩) (A := fun j => 6 * j) (an := ⟨tw, 1, 2, false, fun _ _ => 6⟩) (An := fun _ => 6) lib 1 (by omega)
    ⟨rfl, rfl, rfl, fun _ _ => rfl⟩ ⟨rfl, rfl, rfl, fun _ _ => rfl⟩ ⟨rfl, rfl, rfl, fun _ _ => rfl⟩ ⟨rfl, rfl, rfl, fun _ _ => rfl⟩ rfl
  refine ⟨out, e, (h 1 (by omega)).trans ?_⟩
  simp [trapzModAccelRestr]
  norm_num

/-- The same with three derivatives. -/
example (lib : Lib) (tw : Bool) : ∃ out, hsA lib ⟨tw, 1, 3, false, fun _ j => j⟩ ⟨tw, 1, 3, false, fun _ j => j⟩ ⟨tw, 1, 1, false, fun _ _ => 6⟩
    ⟨tw, 1, 1, false, fun _ _ => 6⟩ 1 ⟨tw, 1, 1, false, fun _ _ => 12⟩ = .ok out ∧ out.val 0 (1 * 2 + 0) = -10 := by
  obtain ⟨out, e, -, -, -, h⟩ := C143_hs (tw := tw) (M := 3) (dim := 1) (x := ⟨tw, 1, 3, false, fun _ j => j⟩) (X := fun j => j)
    (xn := ⟨tw, 1, 3, false, fun _ j => j⟩) (Xn := fun j => j) (a := ⟨tw, 1, 1, false, fun _ _ => 6⟩) (A := fun _ => 6) (an := ⟨tw, 1, 1, false, fun _ _ => 6⟩)
    (An := fun _ => 6) (ac := ⟨tw, 1, 1, false, fun _ _ => 12⟩) (Ac := fun _ => 12) lib 1 (by omega) (by omega)
    ⟨rfl, rfl, rfl, fun _ _ => rfl⟩ ⟨rfl, rfl, rfl, fun _ _ => rfl⟩ ⟨rfl, rfl, rfl, fun _ _ => rfl⟩ ⟨rfl, rfl, rfl, fun _ _ => rfl⟩
    ⟨rfl, rfl, rfl, fun _ _ => rfl⟩ rfl
  refine ⟨out, e, (h 2 (by omega) 0 (by omega)).trans ?_⟩
  simp [hsAccelRestr, shiftIn]
  norm_num

end Chords.Props
