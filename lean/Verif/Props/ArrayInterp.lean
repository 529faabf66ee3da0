import Verif.Model.ArrayInterp
import Verif.Props.ArrayProgs

/-! # Interpolation of any order on arrays: C179 -/

namespace Chords.Props
open ArrayProgs

theorem assign_paste {m : Mem} {r : Ref} {v : Cell} (h2 : v.rows = (m.cells r.id).rows) (h3 : v.cols = r.cols) : assign m r v = .ok (m.paste r v) := by
  rw [assign, if_pos ⟨h2, h3⟩]

/-- The terms added to a division. -/
theorem interp_inner {K dim r s : ℕ} {tw b : Bool} {x_list : List Ref} {xs : ℕ → Ref} (hl : ∀ q < K, nth x_list q = .ok (xs q)) {tgt : Ref} {coef : ℕ → ℝ}
    {X : ℕ → ℕ → ℕ → ℝ} (hcols : tgt.cols = dim) (n : ℕ) (hn : n ≤ K - s) (m : Mem)
    (h1 : (m.cells tgt.id).two = tw) (h2 : (m.cells tgt.id).rows = r) (h3 : (m.cells tgt.id).int = b)
    (h4 : ∀ i < r, ∀ j < dim, (m.read tgt).val i j = store b 0)
    (hx : ∀ q < K, (xs q).id ≠ tgt.id ∧ Holds (m.read (xs q)) tw r dim (X q)) :
    ∃ m', (List.range n).foldlM (fun m i => do
      let xi ← nth x_list (i + s)
      let t ← bop .numpy (· + ·) (m.read tgt) (scale (coef i) (m.read xi))
      assign m tgt t) m = .ok m' ∧ Kept (Block tgt) m m' ∧
      ∀ i < r, ∀ j < dim, (m'.read tgt).val i j = acc b 0 (fun q => coef q * X (q + s) i j) n := by
  induction n with
  | zero => exact ⟨m, rfl, Kept.refl _ _, h4⟩
  | succ n ih =>
    obtain ⟨m1, e, hk, hv⟩ := ih (by omega)
    rw [List.range_succ, List.foldlM_append, e]
    have hp : n + s < K := by omega
    obtain ⟨hid, hX⟩ := hx _ hp
    have hX' : Holds (m1.read (xs (n + s))) tw r dim (X (n + s)) := by
      have : m1.read (xs (n + s)) = m.read (xs (n + s)) := read_congr (hk.cells fun j hb => hid hb.1)
      rw [this]
      exact hX
    have hT : Holds (m1.read tgt) tw r dim (fun i j => acc b 0 (fun q => coef q * X (q + s) i j) n) :=
      ⟨(hk.two _).trans h1, (hk.rows _).trans h2, hcols, hv⟩
    obtain ⟨C, eC, hC⟩ := bop_holds .numpy (· + ·) hT (scale_holds (coef n) hX')
    refine ⟨m1.paste tgt C, ?_, hk.trans (paste_kept _ _ _), fun i hi j hj => ?_⟩
    · simp only [bind, Except.bind, List.foldlM_cons, List.foldlM_nil, hl _ hp, eC, pure, Except.pure]
      rw [assign_paste]
      · rw [hC.rows, hk.rows, h2]
      · rw [hC.cols, hcols]
    · rw [paste_val _ _ _ (by rw [hk.rows, h2]; exact hi) (hcols ▸ hj), hk.int, h3, hC.val i hi j hj, acc]

/-- The divisions after the loops. -/
theorem interpLoop_ok {M K deriv dim r : ℕ} {tw b : Bool} {x_list : List Ref} {xs out : ℕ → Ref} (hl : ∀ q < K, nth x_list q = .ok (xs q)) (tau : ℝ)
    {X : ℕ → ℕ → ℕ → ℝ} (m : Mem)
    (h0 : ∀ p < M, (out p).cols = dim) (h1 : ∀ p < M, (m.cells (out p).id).two = tw) (h2 : ∀ p < M, (m.cells (out p).id).rows = r)
    (h3 : ∀ p < M, (m.cells (out p).id).int = b) (h4 : ∀ p < M, ∀ q < M, p ≠ q → Apart (out p) (out q))
    (hx : ∀ q < K, (∀ p < M, (xs q).id ≠ (out p).id) ∧ Holds (m.read (xs q)) tw r dim (X q)) :
    ∃ m', interpLoop M K deriv m x_list ((List.range M).map out) tau = .ok m' ∧
      Kept (fun k _ => ∃ p < M, k = (out p).id) m m' ∧
      ∀ p < M, ∀ i < r, ∀ j < dim, (m'.read (out p)).val i j =
        acc b 0 (fun q => tau ^ q / (Nat.factorial q : ℝ) * X (q + (p + deriv)) i j) (K - (p + deriv)) := by
  suffices H : ∀ n ≤ M, ∃ m', (List.range n).foldlM (fun m k => do
      let pos := M - 1 - k
      let tgt ← nth ((List.range M).map out) pos
      let m := m.paste tgt { m.read tgt with val := fun _ _ => 0 }
      (List.range (K - (pos + deriv))).foldlM (fun m i => do
        let xi ← nth x_list (i + (pos + deriv))
        let t ← bop .numpy (· + ·) (m.read tgt) (scale (tau ^ i / (Nat.factorial i : ℝ)) (m.read xi))
        assign m tgt t) m) m = .ok m' ∧
      Kept (fun k _ => ∃ p < M, k = (out p).id) m m' ∧
      ∀ p < M, M - n ≤ p → ∀ i < r, ∀ j < dim, (m'.read (out p)).val i j =
        acc b 0 (fun q => tau ^ q / (Nat.factorial q : ℝ) * X (q + (p + deriv)) i j) (K - (p + deriv)) by
    obtain ⟨m', e, hk, hv⟩ := H M le_rfl
    exact ⟨m', e, hk, fun p hp => hv p hp (by omega)⟩
  intro n hn
  induction n with
  | zero => exact ⟨m, rfl, Kept.refl _ _, fun p hp h => by omega⟩
  | succ n ih =>
    obtain ⟨m1, e, hk, hv⟩ := ih (by omega)
    obtain ⟨P, hP⟩ : ∃ P, P = M - 1 - n := ⟨_, rfl⟩
    have hPM : P < M := by omega
    obtain ⟨z, hz⟩ : ∃ z : Cell, z = { m1.read (out P) with val := fun _ _ => 0 } := ⟨_, rfl⟩
    have hsub : ∀ k j, Block (out P) k j → ∃ p < M, k = (out p).id := fun k j hb => ⟨P, hPM, hb.1⟩
    have hk2 := hk.trans ((paste_kept m1 (out P) z).mono hsub)
    obtain ⟨m2, e2, hk3, hv2⟩ := interp_inner hl (coef := fun i => tau ^ i / (Nat.factorial i : ℝ)) (tgt := out P) (X := X) (b := b) (s := P + deriv) (h0 P hPM)
      (K - (P + deriv)) le_rfl (m1.paste (out P) z) (by rw [hk2.two, h1 P hPM]) (by rw [hk2.rows, h2 P hPM]) (by rw [hk2.int, h3 P hPM])
      (fun i hi j hj => by
        rw [paste_val _ _ _ (by rw [hk.rows, h2 P hPM]; exact hi) (by rw [h0 P hPM]; exact hj), hk.int, h3 P hPM, hz])
      (fun q hq => by
        refine ⟨(hx q hq).1 P hPM, ?_⟩
        have : (m1.paste (out P) z).read (xs q) = m.read (xs q) := by
          refine read_congr (hk2.cells fun j hb => ?_)
          obtain ⟨p, hp, hb⟩ := hb
          exact (hx q hq).1 p hp hb
        rw [this]
        exact (hx q hq).2)
    refine ⟨m2, ?_, hk2.trans (hk3.mono hsub), fun p hp hn' i hi j hj => ?_⟩
    · rw [List.range_succ, List.foldlM_append, e]
      simp only [bind, Except.bind, List.foldlM_cons, List.foldlM_nil, pure, Except.pure, nth_map out hPM, ← hP, ← hz] at e2 ⊢
      rw [e2]
    · by_cases hpP : p = P
      · subst hpP
        rw [hv2 i hi j hj]
      · rw [← hv p hp (by omega) i hi j hj]
        have hb : ∀ jj, jj < dim → ¬Block (out P) (out p).id ((out p).lo + jj) := fun jj hjj hb =>
          h4 p hp P hPM hpP _ _ ⟨rfl, by omega, by rw [h0 p hp]; omega⟩ hb
        simp only [Mem.read]
        rw [hk3.val _ _ _ (hb j hj), (paste_kept m1 (out P) z).val _ _ _ (hb j hj)]

/-- The slice of a division. -/
def part (x : Ref) (dim p : ℕ) : Ref := ⟨x.id, x.lo + dim * p, dim⟩

theorem part_divisions (m : Mem) {x : Ref} {M dim : ℕ} (hM : 0 < M) (hc : x.cols = M * dim) :
    divisions .numpy m x M = ((List.range M).map (part x dim), m) := by
  rw [numpy_divisions, hc, Nat.mul_div_cancel_left _ hM]
  rfl

theorem part_holds {m : Mem} {x : Ref} {tw : Bool} {r M dim : ℕ} (h : Fits m x tw r (M * dim)) (p : ℕ) :
    Holds (m.read (part x dim p)) tw r dim fun i j => (m.read x).val i (dim * p + j) :=
  ⟨h.two, h.rows, rfl, fun i _ j _ => by simp [Mem.read, part, Nat.add_assoc]⟩

theorem part_later {m m' : Mem} {x : Ref} {tw : Bool} {r M dim : ℕ} (h : Fits m x tw r (M * dim)) (hk : m'.cells x.id = m.cells x.id) (p : ℕ) :
    Holds (m'.read (part x dim p)) tw r dim fun i j => (m.read x).val i (dim * p + j) := by
  rw [read_congr (r := part x dim p) hk]
  exact part_holds h p

theorem part_apart (x : Ref) (dim : ℕ) {p q : ℕ} (hpq : p ≠ q) : Apart (part x dim p) (part x dim q) := by
  rintro k j ⟨-, h1, h2⟩ ⟨-, h3, h4⟩
  dsimp only [part] at h1 h2 h3 h4
  rcases Nat.lt_or_gt_of_ne hpq with h | h
  · have := Nat.mul_le_mul_left dim (Nat.succ_le_of_lt h)
    rw [Nat.mul_succ] at this
    omega
  · have := Nat.mul_le_mul_left dim (Nat.succ_le_of_lt h)
    rw [Nat.mul_succ] at this
    omega

theorem alloc_other (m : Mem) (c : Cell) {k : ℕ} (hk : k < m.next) : (m.alloc c).2.cells k = m.cells k := by
  simp only [Mem.alloc]
  rw [Function.update_of_ne (by omega)]

theorem alloc_self (m : Mem) (c : Cell) : (m.alloc c).2.cells m.next = c := by simp [Mem.alloc]

theorem nth_append {M : ℕ} (out : ℕ → Ref) (l : List Ref) (q : ℕ) : nth ((List.range M).map out ++ l) q = if q < M then .ok (out q) else nth l (q - M) := by
  by_cases h : q < M
  · rw [if_pos h, nth, List.getElem?_append_left (by simpa using h)]
    simp [h]
  · rw [if_neg h, nth, nth, List.getElem?_append_right (by simpa using h)]
    simp

/-- The end of both functions: a copy of `x` in cell `m.next`, later arrays with the terms of highest order, and the loops. -/
theorem interp_end {M K deriv dim r : ℕ} {tw : Bool} (m m1 : Mem) {x : Ref} (hx : Fits m x tw r (M * dim)) (hM : 0 < M)
    (h1 : ∀ k < m.next, m1.cells k = m.cells k) (h2 : m1.cells m.next = m.read x) {x_list : List Ref} {xs : ℕ → Ref}
    (hl : ∀ q < K, nth x_list q = .ok (xs q)) (tau : ℝ) {X : ℕ → ℕ → ℕ → ℝ}
    (hxs : ∀ q < K, (xs q).id ≠ m.next ∧ Holds (m1.read (xs q)) tw r dim (X q)) :
    ∃ m', interpLoop M K deriv m1 x_list ((List.range M).map (part ⟨m.next, 0, x.cols⟩ dim)) tau = .ok m' ∧ (∀ k < m.next, m'.cells k = m.cells k) ∧
      Holds (m'.read ⟨m.next, 0, x.cols⟩) tw r (M * dim) (m'.read ⟨m.next, 0, x.cols⟩).val ∧
      ∀ p < M, ∀ i < r, ∀ j < dim, (m'.read ⟨m.next, 0, x.cols⟩).val i (dim * p + j) =
        acc (m.cells x.id).int 0 (fun q => tau ^ q / (Nat.factorial q : ℝ) * X (q + (p + deriv)) i j) (K - (p + deriv)) := by
  have hid : ∀ p, (part ⟨m.next, 0, x.cols⟩ dim p).id = m.next := fun _ => rfl
  obtain ⟨m', e, hk, hv⟩ := interpLoop_ok (M := M) (deriv := deriv) (dim := dim) (r := r) (tw := tw) (b := (m.cells x.id).int) (out := part ⟨m.next, 0, x.cols⟩ dim)
    hl tau m1 (fun _ _ => rfl) (fun p _ => by rw [hid, h2]; exact hx.two) (fun p _ => by rw [hid, h2]; exact hx.rows) (fun p _ => by rw [hid, h2]; rfl)
    (fun p _ q _ hpq => part_apart _ _ hpq) (fun q hq => ⟨fun p _ => (hxs q hq).1, (hxs q hq).2⟩)
  refine ⟨m', e, fun k hkn => ?_, ⟨?_, ?_, hx.cols, fun _ _ _ _ => rfl⟩, fun p hp i hi j hj => ?_⟩
  · rw [hk.cells fun j hj => ?_, h1 k hkn]
    obtain ⟨p, -, hp⟩ := hj
    rw [hid] at hp
    omega
  · show (m'.cells m.next).two = tw
    rw [hk.two, h2]; exact hx.two
  · show (m'.cells m.next).rows = r
    rw [hk.rows, h2]; exact hx.rows
  · rw [← hv p hp i hi j hj]
    simp [Mem.read, part, Nat.add_assoc]

/-- The interpolation of `trapz_n` on arrays that contain any type of numbers. -/
theorem tzInterpArr_ok {M dim r : ℕ} (hM : 0 < M) (deriv : ℕ) {tw : Bool} (m : Mem) {x xd xdn : Ref} (tau h : ℝ)
    (hx : Fits m x tw r (M * dim)) (hd : Fits m xd tw r (M * dim)) (hdn : Fits m xdn tw r (M * dim)) :
    ∃ out m', tzInterpArr M deriv m x xd xdn tau h = .ok (out, m') ∧ (∀ k < m.next, m'.cells k = m.cells k) ∧
      Holds out tw r (M * dim) out.val ∧ ∀ p < M, ∀ i < r, ∀ j < dim, out.val i (dim * p + j) =
        acc (m.cells x.id).int 0 (fun q => tau ^ q / (Nat.factorial q : ℝ) *
          tzList M (fun p => (m.read x).val i (dim * p + j)) ((m.read xd).val i (dim * (M - 1) + j)) ((m.read xdn).val i (dim * (M - 1) + j)) h (q + (p + deriv)))
          (M + 2 - (p + deriv)) := by
  obtain ⟨m1, hm1⟩ : ∃ m1, m1 = (m.alloc (m.read x)).2 := ⟨_, rfl⟩
  obtain ⟨g1, g2, g3⟩ := alloc_copy m x m1 hm1
  have hn1 : m1.next = m.next + 1 := by rw [hm1]; rfl
  have hal : m.alloc (m.read x) = (⟨m.next, 0, x.cols⟩, m1) := by rw [hm1]; rfl
  have hM1 : M - 1 < M := by omega
  have hA := part_later hd (g1 _ hd.id) (M - 1)
  have hAn := part_later hdn (g1 _ hdn.id) (M - 1)
  obtain ⟨t, et, ht⟩ := bop_holds .numpy (· + ·) (scale_holds (-1) hA) hAn
  have hS := scale_holds (1 / h) ht
  obtain ⟨m2, hm2⟩ : ∃ m2, m2 = (m1.alloc (scale (1 / h) t)).2 := ⟨_, rfl⟩
  have hal2 : m1.alloc (scale (1 / h) t) = (⟨m1.next, 0, dim⟩, m2) := by rw [hm2, ← hS.cols]; rfl
  have k1 : ∀ k < m1.next, m2.cells k = m1.cells k := fun k hk => by rw [hm2]; exact alloc_other _ _ hk
  have k2 : m2.cells m1.next = scale (1 / h) t := by rw [hm2]; exact alloc_self _ _
  have k3 : ∀ k < m.next, m2.cells k = m.cells k := fun k hk => by rw [k1 k (by omega), g1 k hk]
  obtain ⟨xs, hxs⟩ : ∃ xs : ℕ → Ref, xs = fun q => if q < M then part x dim q else if q = M then part xd dim (M - 1) else ⟨m1.next, 0, dim⟩ := ⟨_, rfl⟩
  obtain ⟨m', e, f1, f2, f3⟩ := interp_end (K := M + 2) (deriv := deriv) m m2 hx hM k3 (by rw [k1 _ (by omega), g3])
    (x_list := (List.range M).map (part x dim) ++ [part xd dim (M - 1), ⟨m1.next, 0, dim⟩]) (xs := xs)
    (fun q hq => by
      rw [nth_append, hxs]
      by_cases h1 : q < M
      · simp [h1]
      · obtain h2 | h2 : q = M ∨ q = M + 1 := by omega
        · subst h2; simp [nth]
        · subst h2; simp [nth]) tau
    (X := fun q i j => tzList M (fun p => (m.read x).val i (dim * p + j)) ((m.read xd).val i (dim * (M - 1) + j)) ((m.read xdn).val i (dim * (M - 1) + j)) h q)
    (fun q hq => by
      rw [hxs]
      by_cases h1 : q < M
      · simp only [h1, if_true, tzList]
        exact ⟨by show x.id ≠ _; have := hx.id; omega, part_later hx (k3 _ hx.id) q⟩
      · obtain h2 | h2 : q = M ∨ q = M + 1 := by omega
        · subst h2
          simp only [lt_irrefl, if_false, if_true, tzList]
          exact ⟨by show xd.id ≠ _; have := hd.id; omega, part_later hd (k3 _ hd.id) _⟩
        · subst h2
          have e1 : ¬M + 1 < M := by omega
          have e2 : ¬M + 1 = M := by omega
          simp only [e1, e2, if_false, if_true, tzList]
          refine ⟨by show m1.next ≠ _; omega, ?_⟩
          have : m2.read ⟨m1.next, 0, dim⟩ = scale (1 / h) t := by
            rw [Mem.read]
            dsimp only
            rw [k2]
            exact cell_ext rfl rfl hS.cols.symm rfl fun i j => by simp
          rw [this]
          refine ⟨hS.two, hS.rows, hS.cols, fun i hi j hj => ?_⟩
          rw [hS.val i hi j hj]
          simp)
  refine ⟨m'.read ⟨m.next, 0, x.cols⟩, m', ?_, f1, f2, f3⟩
  rw [tzInterpArr]
  simp only [hal, part_divisions _ hM hx.cols, part_divisions _ hM hd.cols, part_divisions _ hM hdn.cols,
    part_divisions _ hM (x := ⟨m.next, 0, x.cols⟩) hx.cols, bind, Except.bind, nth_map _ hM1, et, hal2, e, pure, Except.pure]

/-- The interpolation of `hsn` on arrays that contain any type of numbers. -/
theorem hsInterpArr_ok {M dim r : ℕ} (hM : 0 < M) (deriv : ℕ) {tw : Bool} (m : Mem) {x xd xdn xdc : Ref} (tau h : ℝ)
    (hx : Fits m x tw r (M * dim)) (hd : Fits m xd tw r (M * dim)) (hdn : Fits m xdn tw r (M * dim)) (hdc : Fits m xdc tw r (M * dim)) :
    ∃ out m', hsInterpArr M deriv m x xd xdn tau h xdc = .ok (out, m') ∧ (∀ k < m.next, m'.cells k = m.cells k) ∧
      Holds out tw r (M * dim) out.val ∧ ∀ p < M, ∀ i < r, ∀ j < dim, out.val i (dim * p + j) =
        acc (m.cells x.id).int 0 (fun q => tau ^ q / (Nat.factorial q : ℝ) *
          hsList M (fun p => (m.read x).val i (dim * p + j)) ((m.read xd).val i (dim * (M - 1) + j)) ((m.read xdn).val i (dim * (M - 1) + j))
            ((m.read xdc).val i (dim * (M - 1) + j)) h (q + (p + deriv))) (M + 3 - (p + deriv)) := by
  obtain ⟨m1, hm1⟩ : ∃ m1, m1 = (m.alloc (m.read x)).2 := ⟨_, rfl⟩
  obtain ⟨g1, g2, g3⟩ := alloc_copy m x m1 hm1
  have hn1 : m1.next = m.next + 1 := by rw [hm1]; rfl
  have hal : m.alloc (m.read x) = (⟨m.next, 0, x.cols⟩, m1) := by rw [hm1]; rfl
  have hM1 : M - 1 < M := by omega
  obtain ⟨t, et, ht⟩ := bop_holds .numpy (· + ·) (scale_holds (-3) (part_later hd (g1 _ hd.id) (M - 1))) (scale_holds 4 (part_later hdc (g1 _ hdc.id) (M - 1)))
  obtain ⟨u, eu, hu⟩ := bop_holds .numpy (· - ·) ht (part_later hdn (g1 _ hdn.id) (M - 1))
  have hS := scale_holds (1 / h) hu
  obtain ⟨m2, hm2⟩ : ∃ m2, m2 = (m1.alloc (scale (1 / h) u)).2 := ⟨_, rfl⟩
  have hn2 : m2.next = m1.next + 1 := by rw [hm2]; rfl
  have hal2 : m1.alloc (scale (1 / h) u) = (⟨m1.next, 0, dim⟩, m2) := by rw [hm2, ← hS.cols]; rfl
  have k1 : ∀ k < m1.next, m2.cells k = m1.cells k := fun k hk => by rw [hm2]; exact alloc_other _ _ hk
  have k2 : m2.cells m1.next = scale (1 / h) u := by rw [hm2]; exact alloc_self _ _
  have k3 : ∀ k < m.next, m2.cells k = m.cells k := fun k hk => by rw [k1 k (by omega), g1 k hk]
  obtain ⟨v, ev, hv⟩ := bop_holds .numpy (· - ·) (scale_holds 4 (part_later hd (k3 _ hd.id) (M - 1))) (scale_holds 8 (part_later hdc (k3 _ hdc.id) (M - 1)))
  obtain ⟨w, ew, hw⟩ := bop_holds .numpy (· + ·) hv (scale_holds 4 (part_later hdn (k3 _ hdn.id) (M - 1)))
  have hS2 := scale_holds (1 / h ^ 2) hw
  obtain ⟨m3, hm3⟩ : ∃ m3, m3 = (m2.alloc (scale (1 / h ^ 2) w)).2 := ⟨_, rfl⟩
  have hal3 : m2.alloc (scale (1 / h ^ 2) w) = (⟨m2.next, 0, dim⟩, m3) := by rw [hm3, ← hS2.cols]; rfl
  have l1 : ∀ k < m2.next, m3.cells k = m2.cells k := fun k hk => by rw [hm3]; exact alloc_other _ _ hk
  have l2 : m3.cells m2.next = scale (1 / h ^ 2) w := by rw [hm3]; exact alloc_self _ _
  have l3 : ∀ k < m.next, m3.cells k = m.cells k := fun k hk => by rw [l1 k (by omega), k3 k hk]
  obtain ⟨xs, hxs⟩ : ∃ xs : ℕ → Ref, xs = fun q => if q < M then part x dim q else if q = M then part xd dim (M - 1) else
    if q = M + 1 then ⟨m1.next, 0, dim⟩ else ⟨m2.next, 0, dim⟩ := ⟨_, rfl⟩
  obtain ⟨m', e, f1, f2, f3⟩ := interp_end (K := M + 3) (deriv := deriv) m m3 hx hM l3 (by rw [l1 _ (by omega), k1 _ (by omega), g3])
    (x_list := (List.range M).map (part x dim) ++ [part xd dim (M - 1), ⟨m1.next, 0, dim⟩, ⟨m2.next, 0, dim⟩]) (xs := xs)
    (fun q hq => by
      rw [nth_append, hxs]
      by_cases h1 : q < M
      · simp [h1]
      · obtain h2 | h2 | h2 : q = M ∨ q = M + 1 ∨ q = M + 2 := by omega
        · subst h2; simp [nth]
        · subst h2; simp [nth]
        · subst h2; simp [nth]) tau
    (X := fun q i j => hsList M (fun p => (m.read x).val i (dim * p + j)) ((m.read xd).val i (dim * (M - 1) + j)) ((m.read xdn).val i (dim * (M - 1) + j))
      ((m.read xdc).val i (dim * (M - 1) + j)) h q)
    (fun q hq => by
      rw [hxs]
      by_cases h1 : q < M
      · simp only [h1, if_true, hsList]
        exact ⟨by show x.id ≠ _; have := hx.id; omega, part_later hx (l3 _ hx.id) q⟩
      · obtain h2 | h2 | h2 : q = M ∨ q = M + 1 ∨ q = M + 2 := by omega
        · subst h2
          simp only [lt_irrefl, if_false, if_true, hsList]
          exact ⟨by show xd.id ≠ _; have := hd.id; omega, part_later hd (l3 _ hd.id) _⟩
        · subst h2
          have e1 : ¬M + 1 < M := by omega
          have e2 : ¬M + 1 = M := by omega
          simp only [e1, e2, if_false, if_true, hsList]
          refine ⟨by show m1.next ≠ _; omega, ?_⟩
          have : m3.read ⟨m1.next, 0, dim⟩ = scale (1 / h) u := by
            rw [Mem.read]
            dsimp only
            rw [l1 _ (by omega), k2]
            exact cell_ext rfl rfl hS.cols.symm rfl fun i j => by simp
          rw [this]
          refine ⟨hS.two, hS.rows, hS.cols, fun i hi j hj => ?_⟩
          rw [hS.val i hi j hj]
          simp
        · subst h2
          have e1 : ¬M + 2 < M := by omega
          have e2 : ¬M + 2 = M := by omega
          have e3 : ¬M + 2 = M + 1 := by omega
          simp only [e1, e2, e3, if_false, if_true, hsList]
          refine ⟨by show m2.next ≠ _; omega, ?_⟩
          have : m3.read ⟨m2.next, 0, dim⟩ = scale (1 / h ^ 2) w := by
            rw [Mem.read]
            dsimp only
            rw [l2]
            exact cell_ext rfl rfl hS2.cols.symm rfl fun i j => by simp
          rw [this]
          refine ⟨hS2.two, hS2.rows, hS2.cols, fun i hi j hj => ?_⟩
          rw [hS2.val i hi j hj]
          simp)
  refine ⟨m'.read ⟨m.next, 0, x.cols⟩, m', ?_, f1, f2, f3⟩
  rw [hsInterpArr]
  simp only [hal, part_divisions _ hM hx.cols, part_divisions _ hM hd.cols, part_divisions _ hM hdn.cols, part_divisions _ hM hdc.cols,
    part_divisions _ hM (x := ⟨m.next, 0, x.cols⟩) hx.cols, bind, Except.bind, nth_map _ hM1, et, eu, hal2, ev, ew, hal3, e, pure, Except.pure]

/-! ### C179 -/

/-- C179. -/
theorem C179_tz_partial {M dim r : ℕ} (hM : 0 < M) (deriv : ℕ) {tw : Bool} (m : Mem) {x xd xdn : Ref} (tau h : ℝ)
    (hx : Fits m x tw r (M * dim)) (hd : Fits m xd tw r (M * dim)) (hdn : Fits m xdn tw r (M * dim)) (hfl : (m.cells x.id).int = false) :
    ∃ out m', tzInterpArr M deriv m x xd xdn tau h = .ok (out, m') ∧ (∀ k < m.next, m'.cells k = m.cells k) ∧
      out.two = tw ∧ out.rows = r ∧ out.cols = M * dim ∧ ∀ p < M, ∀ i < r, ∀ j < dim, out.val i (dim * p + j) =
        tzInterp M deriv (fun p => (m.read x).val i (dim * p + j)) ((m.read xd).val i (dim * (M - 1) + j)) ((m.read xdn).val i (dim * (M - 1) + j)) tau h p := by
  obtain ⟨out, m', e, h1, h2, h3⟩ := tzInterpArr_ok hM deriv m tau h hx hd hdn
  refine ⟨out, m', e, h1, h2.two, h2.rows, h2.cols, fun p hp i hi j hj => ?_⟩
  rw [h3 p hp i hi j hj, hfl, acc_float, zero_add]
  simp only [tzInterp, smul_eq_mul, Nat.add_assoc]

/-- C179. -/
theorem C179_hs_partial {M dim r : ℕ} (hM : 0 < M) (deriv : ℕ) {tw : Bool} (m : Mem) {x xd xdn xdc : Ref} (tau h : ℝ)
    (hx : Fits m x tw r (M * dim)) (hd : Fits m xd tw r (M * dim)) (hdn : Fits m xdn tw r (M * dim)) (hdc : Fits m xdc tw r (M * dim))
    (hfl : (m.cells x.id).int = false) :
    ∃ out m', hsInterpArr M deriv m x xd xdn tau h xdc = .ok (out, m') ∧ (∀ k < m.next, m'.cells k = m.cells k) ∧
      out.two = tw ∧ out.rows = r ∧ out.cols = M * dim ∧ ∀ p < M, ∀ i < r, ∀ j < dim, out.val i (dim * p + j) =
        hsInterp M deriv (fun p => (m.read x).val i (dim * p + j)) ((m.read xd).val i (dim * (M - 1) + j)) ((m.read xdn).val i (dim * (M - 1) + j)) tau h
          ((m.read xdc).val i (dim * (M - 1) + j)) p := by
  obtain ⟨out, m', e, h1, h2, h3⟩ := hsInterpArr_ok hM deriv m tau h hx hd hdn hdc
  refine ⟨out, m', e, h1, h2.two, h2.rows, h2.cols, fun p hp i hi j hj => ?_⟩
  rw [h3 p hp i hi j hj, hfl, acc_float, zero_add]
  simp only [hsInterp, smul_eq_mul, Nat.add_assoc]

theorem acc_int (first : ℝ) (term : ℕ → ℝ) (n : ℕ) : ∃ z : ℤ, acc true first term n = z := by
  have h : ∀ v : ℝ, ∃ z : ℤ, store true v = z := fun v => by
    rw [store, if_pos rfl, trunc]
    split_ifs
    · exact ⟨_, rfl⟩
    · exact ⟨_, rfl⟩
  cases n <;> exact h _

/-- What C179 becomes for arrays of integers: whatever the derivatives and the instant, the interpolated state only has integers. -/
theorem C179_int {M dim r : ℕ} (hM : 0 < M) (deriv : ℕ) {tw : Bool} (m : Mem) {x xd xdn xdc : Ref} (tau h : ℝ)
    (hx : Fits m x tw r (M * dim)) (hd : Fits m xd tw r (M * dim)) (hdn : Fits m xdn tw r (M * dim)) (hdc : Fits m xdc tw r (M * dim))
    (hint : (m.cells x.id).int = true) :
    (∃ out m', tzInterpArr M deriv m x xd xdn tau h = .ok (out, m') ∧ ∀ i < r, ∀ c < M * dim, ∃ z : ℤ, out.val i c = z) ∧
    ∃ out m', hsInterpArr M deriv m x xd xdn tau h xdc = .ok (out, m') ∧ ∀ i < r, ∀ c < M * dim, ∃ z : ℤ, out.val i c = z := by
  obtain ⟨out, m', e, -, -, h3⟩ := tzInterpArr_ok hM deriv m tau h hx hd hdn
  obtain ⟨out2, m2, e2, -, -, h4⟩ := hsInterpArr_ok hM deriv m tau h hx hd hdn hdc
  refine ⟨⟨out, m', e, fun i hi c hc => ?_⟩, ⟨out2, m2, e2, fun i hi c hc => ?_⟩⟩
  · obtain ⟨p, hp, j, hj, rfl⟩ := exists_block hc
    rw [h3 p hp i hi j hj, hint]
    exact acc_int _ _ _
  · obtain ⟨p, hp, j, hj, rfl⟩ := exists_block hc
    rw [h4 p hp i hi j hj, hint]
    exact acc_int _ _ _

/-- C179 is false of arrays of integers. Position 1 and speed 2 in an array of integers of a trajectory, and its interpolation in a quarter of a step: it stays at position 1, where the
formula gives `1 + 1 / 2`. The same array of floats gives the formula. -/
theorem C179_int_refuted (b : Bool) : ∃ out m', tzInterpArr 1 0 (four ⟨false, 1, 1, b, fun _ _ => 1⟩ ⟨false, 1, 1, false, fun _ _ => 2⟩ ⟨false, 1, 1, false, fun _ _ => 2⟩
    ⟨false, 1, 1, false, fun _ _ => 0⟩) ⟨0, 0, 1⟩ ⟨1, 0, 1⟩ ⟨2, 0, 1⟩ (1 / 4) 1 = .ok (out, m') ∧ out.val 0 (1 * 0 + 0) = if b then 1 else 3 / 2 := by
  obtain ⟨out, m', e, -, -, h⟩ := tzInterpArr_ok (M := 1) (dim := 1) (r := 1) (tw := false) (by omega) 0
    (four ⟨false, 1, 1, b, fun _ _ => 1⟩ ⟨false, 1, 1, false, fun _ _ => 2⟩ ⟨false, 1, 1, false, fun _ _ => 2⟩ ⟨false, 1, 1, false, fun _ _ => 0⟩)
    (x := ⟨0, 0, 1⟩) (xd := ⟨1, 0, 1⟩) (xdn := ⟨2, 0, 1⟩) (1 / 4) 1 ⟨by simp [four], rfl, rfl, rfl⟩ ⟨by simp [four], rfl, rfl, rfl⟩
    ⟨by simp [four], rfl, rfl, rfl⟩
  refine ⟨out, m', e, (h 0 (by omega) 0 (by omega) 0 (by omega)).trans ?_⟩
  have h1 : ⌊(1 : ℝ) + 1 / 2⌋ = 1 := by
    rw [Int.floor_eq_iff]
    norm_num
  cases b
  · simp [acc, store, four, Mem.read, tzList, Nat.factorial]
    norm_num
  · have h2 : trunc ((1 : ℝ) + 4⁻¹ * 2) = 1 := by
      rw [show (1 : ℝ) + 4⁻¹ * 2 = 1 + 1 / 2 by norm_num, trunc, if_pos (by norm_num), h1]
      simp
    simp [acc, store, four, Mem.read, tzList, Nat.factorial, trunc] at h2 ⊢
    norm_num [h1]

/-- Two coordinates and two derivatives, middle of a step, derivative of the interpolation. -/
example : ∃ out m', hsInterpArr 2 1 (four ⟨false, 1, 4, false, fun _ j => j⟩ ⟨false, 1, 4, false, fun _ _ => 1⟩ ⟨false, 1, 4, true, fun _ _ => 2⟩
    ⟨false, 1, 4, false, fun _ _ => 3 / 2⟩) ⟨0, 0, 4⟩ ⟨1, 0, 4⟩ ⟨2, 0, 4⟩ 1 2 ⟨3, 0, 4⟩ = .ok (out, m') ∧ out.val 0 (2 * 0 + 1) = 17 / 4 := by
  obtain ⟨out, m', e, -, -, -, -, h⟩ := C179_hs_partial (M := 2) (dim := 2) (r := 1) (tw := false) (by omega) 1
    (four ⟨false, 1, 4, false, fun _ j => j⟩ ⟨false, 1, 4, false, fun _ _ => 1⟩ ⟨false, 1, 4, true, fun _ _ => 2⟩ ⟨false, 1, 4, false, fun _ _ => 3 / 2⟩)
    (x := ⟨0, 0, 4⟩) (xd := ⟨1, 0, 4⟩) (xdn := ⟨2, 0, 4⟩) (xdc := ⟨3, 0, 4⟩) 1 2 ⟨by simp [four], rfl, rfl, rfl⟩ ⟨by simp [four], rfl, rfl, rfl⟩
    ⟨by simp [four], rfl, rfl, rfl⟩ ⟨by simp [four], rfl, rfl, rfl⟩ rfl
  refine ⟨out, m', e, (h 0 (by omega) 0 (by omega) 1 (by omega)).trans ?_⟩
  simp [hsInterp, hsList, four, Mem.read, Finset.sum_range_succ, Nat.factorial]
  norm_num

end Chords.Props
