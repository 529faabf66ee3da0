import Verif.Props.BuTdInterp

/-! # Dynamic error of bottom-up and top-down results: C64, C112, C113 -/

namespace Chords.Props
open Finset Polynomial Chords.Points Chords.Spec Chords.Bary Chords.Gauss Chords.TimeScale Chords.BuTd Chords.PsInterp
open Chords.BuTdInterp
open Chords.Ph (linspace searchsorted)

/-- An array with the values of derivative `d` of every coordinate. -/
def BlockAt (Q : ℕ → ℝ[X]) (n_q d : ℕ) (ts : List ℝ) (b : Arr2) : Prop :=
  b.width = n_q ∧ b.rows.length = ts.length ∧
    ∀ i < ts.length, ∀ j < n_q, rows b.rows i j = (derivative^[d] (Q j)).eval (arr ts i)

theorem divisions_eq {Q : ℕ → ℝ[X]} {order n_q d : ℕ} (ho : 1 ≤ order) {ts : List ℝ} {a : Arr2}
    (h : SamplesAt Q order n_q d ts a) : (getXDivisions a order).length = order ∧ ∀ k < order,
      ∃ b, (getXDivisions a order)[k]? = some b ∧ BlockAt Q n_q (k + d) ts b := by
  obtain ⟨w1, w2, w3⟩ := h
  have hnq : n_q * order / order = n_q := Nat.mul_div_cancel _ (by omega)
  refine ⟨by simp [getXDivisions], fun k hk => ⟨⟨n_q, a.rows.map fun r c => r (n_q * k + c)⟩, ?_, rfl, by simpa using w2,
    fun i hi j hj => ?_⟩⟩
  · simp [getXDivisions, w1, hnq, hk]
  · rw [← w3 i hi k hk j hj]
    simp [rows, w2, hi]

theorem bIdx_eq {a i : ℕ} (h : i < a) : bIdx a i = i := by
  unfold bIdx; split_ifs <;> omega

theorem bSub_ok {n w : ℕ} {a b : Arr2} (ha : a.width = w) (hb : b.width = w) (ha' : a.rows.length = n)
    (hb' : b.rows.length = n) : ∃ r, bSub a b = .ok r ∧ r.width = w ∧ r.rows.length = n ∧
      ∀ i < n, ∀ j < w, rows r.rows i j = rows a.rows i j - rows b.rows i j := by
  refine ⟨⟨w, (List.range n).map fun i c =>
      rows a.rows (bIdx a.rows.length i) (bIdx a.width c) - rows b.rows (bIdx b.rows.length i) (bIdx b.width c)⟩, ?_, rfl,
    by simp, fun i hi j hj => ?_⟩
  · simp [bSub, ha, hb, ha', hb', bLen]
  · simp only [ha, hb, ha', hb']
    rw [show rows ((List.range n).map fun i c => rows a.rows (bIdx n i) (bIdx w c) - rows b.rows (bIdx n i) (bIdx w c)) i j
      = rows a.rows (bIdx n i) (bIdx w j) - rows b.rows (bIdx n i) (bIdx w j) by simp [rows, hi], bIdx_eq hi, bIdx_eq hj]

theorem setCols_ok {Q : ℕ → ℝ[X]} {order n_q jj : ℕ} (hjj : jj < order) {ts : List ℝ} {x b : Arr2}
    (hx : SamplesAt Q order n_q 0 ts x) (hb : BlockAt Q n_q jj ts b) :
    ∃ y, setCols x (n_q * jj) (n_q * (jj + 1)) b = .ok y ∧ SamplesAt Q order n_q 0 ts y := by
  obtain ⟨w1, w2, w3⟩ := hx
  obtain ⟨v1, v2, v3⟩ := hb
  have h1 : n_q * (jj + 1) ≤ n_q * order := Nat.mul_le_mul_left _ hjj
  have h2 : n_q * (jj + 1) = n_q * jj + n_q := by ring
  have hw : min x.width (n_q * (jj + 1)) - min x.width (n_q * jj) = n_q := by rw [w1]; omega
  refine ⟨⟨x.width, (List.range x.rows.length).map fun i c =>
      if n_q * jj ≤ c ∧ c < n_q * (jj + 1) then rows b.rows (bIdx b.rows.length i) (bIdx b.width (c - n_q * jj))
      else rows x.rows i c⟩, ?_, w1, by simpa using w2, fun i hi k hk j hj => ?_⟩
  · simp only [setCols, hw, v1, v2, w2, true_or, and_self, if_true]
  · have : rows ((List.range x.rows.length).map fun i c =>
      if n_q * jj ≤ c ∧ c < n_q * (jj + 1) then rows b.rows (bIdx b.rows.length i) (bIdx b.width (c - n_q * jj))
      else rows x.rows i c) i (n_q * k + j) = if n_q * jj ≤ n_q * k + j ∧ n_q * k + j < n_q * (jj + 1) then
        rows b.rows (bIdx b.rows.length i) (bIdx b.width (n_q * k + j - n_q * jj)) else rows x.rows i (n_q * k + j) := by
      simp [rows, w2, hi]
    rw [this]
    split_ifs with hc
    · have hkj : k = jj := by
        rcases lt_trichotomy k jj with h | h | h
        · have := col_lt h hj; omega
        · exact h
        · have : n_q * (jj + 1) ≤ n_q * k := Nat.mul_le_mul_left _ h
          omega
      subst hkj
      rw [Nat.add_sub_cancel_left, v1, v2, bIdx_eq hi, bIdx_eq hj, v3 i hi j hj]
      rfl
    · exact w3 i hi k hk j hj

theorem fillQ_ok {Q : ℕ → ℝ[X]} {order n_q : ℕ} {ts : List ℝ} {x : Arr2} (hx : SamplesAt Q order n_q 0 ts x)
    {l : List (List Arr2)} (hl : ∀ jj < order, ∃ m b, l[jj]? = some m ∧ m[0]? = some b ∧ BlockAt Q n_q jj ts b) :
    ∀ k ≤ order, ∃ y, fillQ n_q l x k = .ok y ∧ SamplesAt Q order n_q 0 ts y := by
  intro k
  induction k with
  | zero => intro _; exact ⟨x, rfl, hx⟩
  | succ k ih =>
    intro hk
    obtain ⟨y, h1, h2⟩ := ih (by omega)
    obtain ⟨m, b, m1, m2, m3⟩ := hl k (by omega)
    obtain ⟨z, z1, z2⟩ := setCols_ok (by omega) h2 m3
    exact ⟨z, by simp only [fillQ, h1, getE, m1, m2, bind, Except.bind, z1], z2⟩

/-- The list of lists of errors that is documented: item `jj` has the errors of order `jj + 1`; all of them are identically
zero, except the last one of each list, which is `E`. -/
def ErrsAre (order n_q n : ℕ) (E : ℕ → ℕ → ℝ) (errs : List (List Arr2)) : Prop :=
  errs.length = order ∧ ∀ jj < order, ∃ l, errs[jj]? = some l ∧ l.length = order - jj ∧ ∀ ii < order - jj,
    ∃ a, l[ii]? = some a ∧ a.width = n_q ∧ a.rows.length = n ∧ ∀ i < n, ∀ j < n_q,
      rows a.rows i j = if ii + jj + 1 < order then 0 else E i j

/-- `F` reads only the first `n` entries of the state. -/
def Reads (n : ℕ) (F : Row → Row → Row) : Prop := ∀ x x' u : Row, (∀ c < n, x c = x' c) → F x u = F x' u

/-- The state at the instant `t`: all coordinates, then their first derivatives, and so on. -/
noncomputable def stateAt (Q : ℕ → ℝ[X]) (n_q : ℕ) (t : ℝ) : Row := fun c => (derivative^[c / n_q] (Q (c % n_q))).eval t

theorem stateAt_eq (Q : ℕ → ℝ[X]) {n_q k j : ℕ} (hj : j < n_q) (t : ℝ) :
    stateAt Q n_q t (n_q * k + j) = (derivative^[k] (Q j)).eval t := by
  have h1 : (n_q * k + j) / n_q = k := by rw [Nat.mul_add_div (by omega), Nat.div_eq_of_lt hj, add_zero]
  have h2 : (n_q * k + j) % n_q = j := by rw [Nat.mul_add_mod, Nat.mod_eq_of_lt hj]
  rw [stateAt, h1, h2]

theorem samples_state {Q : ℕ → ℝ[X]} {order n_q : ℕ} {ts : List ℝ} {x : Arr2} (hx : SamplesAt Q order n_q 0 ts x)
    {i : ℕ} (hi : i < ts.length) : ∀ c < n_q * order, rows x.rows i c = stateAt Q n_q (arr ts i) c := by
  intro c hc
  have hq : 0 < n_q := Nat.pos_of_ne_zero (by rintro rfl; simp at hc)
  have hk : c / n_q < order := by rw [Nat.div_lt_iff_lt_mul hq, mul_comm]; exact hc
  have := hx.2.2 i hi (c / n_q) hk (c % n_q) (Nat.mod_lt _ hq)
  rw [Nat.div_add_mod] at this
  exact this

/-- The end of both functions, for samples of polynomials. -/
theorem dynErrs_ok {Q : ℕ → ℝ[X]} {order n_q : ℕ} (ho : 1 ≤ order) {ts : List ℝ} {x : Arr2}
    (hx : SamplesAt Q order n_q 0 ts x) {ds : List Arr2} (hd : ds.length = order)
    (hds : ∀ jj < order, ∃ d, ds[jj]? = some d ∧ SamplesAt Q order n_q (jj + 1) ts d) {F : Row → Row → Row}
    (hF : Reads (n_q * order) F) {u : ℝ → Row} :
    ∃ errs, dynErrs F (n_q * order) n_q order "q" ts.length x (getXDivisions x order)
        (ds.map fun d => getXDivisions d order) (ts.map u) = .ok errs ∧
      ErrsAre order n_q ts.length (fun i j => (derivative^[order] (Q j)).eval (arr ts i)
        - F (stateAt Q n_q (arr ts i)) (u (arr ts i)) (n_q * order - n_q + j)) errs := by
  obtain ⟨x1, x2⟩ := divisions_eq ho hx
  have hder : ∀ jj < order, ∃ l, (ds.map fun d => getXDivisions d order)[jj]? = some l ∧
      ∀ k < order, ∃ b, l[k]? = some b ∧ BlockAt Q n_q (k + (jj + 1)) ts b := by
    intro jj hjj
    obtain ⟨d, d1, d2⟩ := hds jj hjj
    exact ⟨_, by rw [List.getElem?_map, d1]; rfl, (divisions_eq ho d2).2⟩
  obtain ⟨y, y1, y2⟩ := fillQ_ok hx (l := getXDivisions x order :: ds.map fun d => getXDivisions d order) (by
    intro jj hjj
    cases jj with
    | zero =>
      obtain ⟨b, b1, b2⟩ := x2 0 (by omega)
      exact ⟨_, b, rfl, b1, b2⟩
    | succ jj =>
      obtain ⟨l, l1, l2⟩ := hder jj (by omega)
      obtain ⟨b, b1, b2⟩ := l2 0 (by omega)
      refine ⟨l, b, l1, b1, ?_⟩
      rwa [zero_add] at b2) order le_rfl
  obtain ⟨f, hf⟩ : ∃ f : Arr2, f = ⟨n_q, (List.range ts.length).map fun ii c =>
    F (fun c => rows y.rows ii c) (fun c => rows (ts.map u) ii c) (n_q * order - n_q + c)⟩ := ⟨_, rfl⟩
  have hfv : ∀ i < ts.length, ∀ j, rows f.rows i j
      = F (stateAt Q n_q (arr ts i)) (u (arr ts i)) (n_q * order - n_q + j) := by
    intro i hi j
    have e1 : rows f.rows i j = F (fun c => rows y.rows i c) (fun c => rows (ts.map u) i c) (n_q * order - n_q + j) := by
      rw [hf]; simp [rows, hi]
    have e2 : (fun c => rows (ts.map u) i c) = u (arr ts i) := by funext c; rw [rows_map _ _ hi]
    rw [e1, e2, hF _ (stateAt Q n_q (arr ts i)) _ (samples_state y2 hi)]
  have hitem : ∀ jj ii, ∃ a, ii + jj < order → (do
      let l ← getE (ds.map fun d => getXDivisions d order) jj
      let a ← getE l ii
      let b ← getE (getXDivisions x order ++ [f]) (ii + jj + 1)
      bSub a b) = .ok a ∧ a.width = n_q ∧ a.rows.length = ts.length ∧ ∀ i < ts.length, ∀ j < n_q,
        rows a.rows i j = if ii + jj + 1 < order then 0 else (derivative^[order] (Q j)).eval (arr ts i)
          - F (stateAt Q n_q (arr ts i)) (u (arr ts i)) (n_q * order - n_q + j) := by
    intro jj ii
    by_cases hij : ii + jj < order
    · obtain ⟨l, l1, l2⟩ := hder jj (by omega)
      obtain ⟨a, a1, a2, a3, a4⟩ := l2 ii (by omega)
      obtain ⟨b, b1, b2, b3, b4⟩ : ∃ b, (getXDivisions x order ++ [f])[ii + jj + 1]? = some b ∧ b.width = n_q ∧
          b.rows.length = ts.length ∧ ∀ i < ts.length, ∀ j < n_q, rows b.rows i j = if ii + jj + 1 < order then
            (derivative^[ii + jj + 1] (Q j)).eval (arr ts i)
            else F (stateAt Q n_q (arr ts i)) (u (arr ts i)) (n_q * order - n_q + j) := by
        by_cases h : ii + jj + 1 < order
        · obtain ⟨b, b1, b2, b3, b4⟩ := x2 (ii + jj + 1) h
          refine ⟨b, by rw [List.getElem?_append_left (by omega), b1], b2, b3, fun i hi j hj => ?_⟩
          rw [b4 i hi j hj, if_pos h, add_zero]
        · refine ⟨f, ?_, by rw [hf], by rw [hf]; simp, fun i hi j hj => ?_⟩
          · rw [List.getElem?_append_right (by omega), x1, show ii + jj + 1 - order = 0 by omega]; simp
          · rw [hfv i hi j, if_neg h]
      obtain ⟨r, r1, r2, r3, r4⟩ := bSub_ok a2 b2 a3 b3
      refine ⟨r, fun _ => ⟨?_, r2, r3, fun i hi j hj => ?_⟩⟩
      · simp only [getE, l1, a1, b1, bind, Except.bind, r1]
      · rw [r4 i hi j hj, a4 i hi j hj, b4 i hi j hj, ← add_assoc]
        split_ifs with h
        · rw [sub_self]
        · rw [show ii + jj + 1 = order by omega]
    · exact ⟨f, fun h => absurd h hij⟩
  choose g hg using hitem
  have hin : ∀ jj ∈ List.range order, ((List.range (order - jj)).mapM fun ii => (do
      let l ← getE (ds.map fun d => getXDivisions d order) jj
      let a ← getE l ii
      let b ← getE (getXDivisions x order ++ [f]) (ii + jj + 1)
      bSub a b)) = .ok ((List.range (order - jj)).map (g jj)) := by
    intro jj hjj
    have := List.mem_range.1 hjj
    exact Exc.mapM_eq fun ii hii => (hg jj ii (by have := List.mem_range.1 hii; omega)).1
  refine ⟨(List.range order).map fun jj => (List.range (order - jj)).map (g jj), ?_, by simp, fun jj hjj =>
    ⟨(List.range (order - jj)).map (g jj), by simp [hjj], by simp, fun ii hii => ⟨g jj ii, by simp [hii], ?_⟩⟩⟩
  · simp only [dynErrs, errTable, y1, pickX, if_true, bind, Except.bind, ← hf]
    exact Exc.mapM_eq hin
  · exact (hg jj ii (by omega)).2

theorem linspace_length (a b : ℝ) (n : ℕ) : (linspace a b n).length = n := by
  unfold Chords.Ph.linspace
  split_ifs with h
  · simp [h]
  · simp

/-! ## C64 -/

/-- C64 for bottom-up results with polynomial interpolation, if the order of the scheme is passed as the order of the
problem: the compatibility errors are identically zero and the dynamic error at each of the instants is the difference of
the derivative of the polynomials and `F`; it is zero at the collocation instants where the data satisfy the dynamics.
Missing: other orders of the scheme (see `C64_bu_order` and `C64_bu_default`), Jacobi schemes of an order other than 2 (see
`C109_refuted`), mode "x" (see `C64_mode_x`). -/
theorem C64_bu_partial {scheme : String} (hs : scheme ∈ buImplemented) {order : ℕ} (ho : 1 ≤ order)
    (hj : order = 2 ∨ scheme ∉ jacobiSchemes) {N : ℕ} (hN : minPoints scheme ≤ N) {n_q : ℕ} (hq : 1 ≤ n_q)
    {t0 t1 : ℝ} (ht : t0 ≠ t1) (lib : Lib) (n : ℕ) {F : Row → Row → Row} (hF : Reads (n_q * order) F) :
    ∃ coll full, buCollPoints N scheme order = .ok coll ∧ buArrPoints N scheme order = .ok full ∧
      ∀ (Q W : ℕ → ℝ[X]) (xx xx_dot : Arr2) (uu : List Row), (∀ j < n_q, (Q j).degree < (order + N : ℕ)) →
      SamplesAt Q order n_q 0 (full.map fun τ => tauToT τ t0 t1) xx →
      SamplesAt Q order n_q 1 (full.map fun τ => tauToT τ t0 t1) xx_dot →
      Through W N coll t0 t1 uu →
      ∃ (E : ℕ → ℕ → ℝ) (errs : List (List Arr2)),
        dynamicErrorBu lib xx xx_dot uu scheme t1 F t0 order order "pol" "pol" n none "q" = .ok errs ∧
        ErrsAre order n_q n E errs ∧
        (∀ i < n, ∀ j < n_q, E i j = (derivative^[order] (Q j)).eval (arr (linspace t0 t1 n) i)
          - F (stateAt Q n_q (arr (linspace t0 t1 n) i)) (fun c => (W c).eval (arr (linspace t0 t1 n) i))
            (n_q * order - n_q + j)) ∧
        ∀ m < N, ∀ r < full.length, arr full r = arr coll m →
          (∀ j < n_q, rows xx_dot.rows r (n_q * (order - 1) + j)
            = F (rows xx.rows r) (rows uu m) (n_q * order - n_q + j)) →
          ∀ i < n, arr (linspace t0 t1 n) i = tauToT (arr coll m) t0 t1 → ∀ j < n_q, E i j = 0 := by
  obtain ⟨coll, full, h1, h2, hint⟩ := C109_partial hs ho ho hj hN hq ht (pre := "") (Or.inl rfl) lib n none
  refine ⟨coll, full, h1, h2, fun Q W xx xx_dot uu hQ hx hx' hu => ?_⟩
  obtain ⟨o, o1, o2, -, o3⟩ := hint Q W xx xx_dot uu hQ hx hx' hu
  have hder : ∀ jj, ∃ a, interpolationsDerivBu lib xx xx_dot scheme order jj t0 t1 order "pol" n none = .ok a ∧
      SamplesAt Q order n_q jj (linspace t0 t1 n) a := by
    intro jj
    obtain ⟨full', q1, q2⟩ := C110_partial hs ho ho hj hN hq ht (pre := "") (Or.inl rfl) lib n none jj
    rw [h2] at q1; cases q1
    obtain ⟨a, a1, a2⟩ := q2 Q xx xx_dot hQ hx hx'
    exact ⟨a, by simpa using a1, a2⟩
  choose d hd1 hd2 using hder
  have hl := linspace_length t0 t1 n
  have o2' : SamplesAt Q order n_q 0 (linspace t0 t1 n) o.x := o2
  obtain ⟨errs, e1, e2⟩ := dynErrs_ok ho o2' (ds := (List.range order).map fun jj => d (jj + 1)) (by simp)
    (fun jj hjj => ⟨d (jj + 1), by simp [hjj], hd2 (jj + 1)⟩) hF (u := fun t c => (W c).eval t)
  rw [hl] at e1 e2
  have hstr : strip "BU_" scheme = scheme := by simpa using strip_bu hs (pre := "") (Or.inl rfl)
  have hne : xx.rows ≠ [] := by
    have h := hx.2.1
    intro he
    obtain ⟨coll', full', constr', s', -, q2, -, q3, -⟩ := bu_setup hs (m := order) ho hN
    rw [h2] at q2; cases q2
    rw [he, List.length_map, q3] at h
    simp at h
  have hnq : n_q * order / order = n_q := Nat.mul_div_cancel _ (by omega)
  have hmap : ((List.range order).mapM fun jj => (do
      let d ← interpolationsDerivBu lib xx xx_dot scheme order (jj + 1) t0 t1 order "pol" n none
      return getXDivisions d order)) = (Except.ok ((List.range order).map fun jj => getXDivisions (d (jj + 1)) order)
        : Except PsErr _) :=
    Exc.mapM_eq fun jj _ => by simp only [hd1, bind, Except.bind, pure, Except.pure]
  refine ⟨_, errs, ?_, e2, fun i hi j hj => rfl, ?_⟩
  · rw [show ("" ++ scheme : String) = scheme by simp] at o1
    simp only [dynamicErrorBu, hstr, hne, show order ≠ 0 by omega, if_false, Option.getD_none, hx.1, hnq, o1, bind,
      Except.bind, o3]
    simp only [bind, Except.bind] at hmap
    rw [hmap]
    simp only [List.map_map] at e1
    exact e1
  · intro m hm r hr hrm hdyn i hi hit j hj
    obtain ⟨c1, f1, -, -, q1, q2, -, -, -, q4, -⟩ := bu_setup hs (m := order) ho hN
    rw [h1] at q1; cases q1
    rw [h2] at q2; cases q2
    have hr' : r < (full.map fun τ => tauToT τ t0 t1).length := by simpa using hr
    have htr : arr (full.map fun τ => tauToT τ t0 t1) r = arr (linspace t0 t1 n) i := by
      rw [arr_map _ _ hr, hrm, hit]
    have e := hdyn j hj
    rw [hx'.2.2 r hr' (order - 1) (by omega) j hj, htr, Nat.sub_add_cancel ho,
      hF (rows xx.rows r) (stateAt Q n_q (arr (linspace t0 t1 n) i)) _ (by
        intro c hc; rw [← htr]; exact samples_state hx hr' c hc)] at e
    have eu : rows uu m = fun c => (W c).eval (arr (linspace t0 t1 n) i) := by
      funext c; rw [(hu c).2 m hm, hit]
    rw [eu] at e
    show (derivative^[order] (Q j)).eval (arr (linspace t0 t1 n) i) - _ = 0
    rw [e, sub_self]

/-- The hypotheses can be met: a double integrator, moved by the control 1, three LGL points. -/
example : "LGL" ∈ buImplemented ∧ minPoints "LGL" ≤ 3 ∧
    Reads (1 * 2) (fun x u c => if c = 0 then x 1 else u 0) ∧
    ∀ t : ℝ, (derivative^[2] (C (1 / 2) * X ^ 2 : ℝ[X])).eval t
      = (fun (x u : Row) (c : ℕ) => if c = 0 then x 1 else u 0) (stateAt (fun _ => C (1 / 2) * X ^ 2) 1 t)
        (fun _ => 1) (1 * 2 - 1 + 0) := by
  refine ⟨by decide, by decide, ?_, fun t => ?_⟩
  · intro x x' u h
    funext c
    simp only
    split_ifs
    · exact h 1 (by norm_num)
    · rfl
  · simp; norm_num

/-- C64 for top-down results with polynomial interpolation, for every scheme and order of the scheme. Missing: mode "x" (see
`C64_mode_x`). -/
theorem C64_td_partial {scheme : String} (hs : scheme ∈ buImplemented) {order m : ℕ} (ho : 1 ≤ order) (hm : 1 ≤ m)
    {N : ℕ} (hN : minPoints scheme ≤ N) {n_q : ℕ} (hq : 1 ≤ n_q)
    {t0 t1 : ℝ} (ht : t0 ≠ t1) (lib : Lib) (n : ℕ) {F : Row → Row → Row} (hF : Reads (n_q * order) F) :
    ∃ coll full nu, buCollPoints N scheme m = .ok coll ∧ tdConstructionPoints N scheme m = .ok full ∧
      collPoints (order + N) "LGL" = .ok nu ∧
      ∀ (Q W : ℕ → ℝ[X]) (q_constr xx xx_dot : Arr2) (uu : List Row), (∀ j < n_q, (Q j).degree < (order + N : ℕ)) →
      SamplesAt Q 1 n_q 0 (nu.map fun τ => tauToT τ t0 t1) q_constr →
      SamplesAt Q order n_q 0 (full.map fun τ => tauToT τ t0 t1) xx →
      SamplesAt Q order n_q 1 (full.map fun τ => tauToT τ t0 t1) xx_dot →
      uu.length = N → Through W N coll t0 t1 uu →
      ∃ (E : ℕ → ℕ → ℝ) (errs : List (List Arr2)),
        dynamicErrorTd lib q_constr xx xx_dot uu scheme t1 F order t0 m "pol" "pol" n "q" = .ok errs ∧
        ErrsAre order n_q n E errs ∧
        (∀ i < n, ∀ j < n_q, E i j = (derivative^[order] (Q j)).eval (arr (linspace t0 t1 n) i)
          - F (stateAt Q n_q (arr (linspace t0 t1 n) i)) (fun c => (W c).eval (arr (linspace t0 t1 n) i))
            (n_q * order - n_q + j)) ∧
        ∀ l < N, ∀ r < full.length, arr full r = arr coll l →
          (∀ j < n_q, rows xx_dot.rows r (n_q * (order - 1) + j)
            = F (rows xx.rows r) (rows uu l) (n_q * order - n_q + j)) →
          ∀ i < n, arr (linspace t0 t1 n) i = tauToT (arr coll l) t0 t1 → ∀ j < n_q, E i j = 0 := by
  obtain ⟨coll, nu, h1, h3, hint⟩ := C111_interp hs ho hm hN hq ht (pre := "") (Or.inl rfl) lib n none
  obtain ⟨coll', full, -, -, h1', h2, -⟩ := td_setup hs ho hm hN ht
  rw [h1] at h1'; cases h1'
  refine ⟨coll, full, nu, h1, h2, h3, fun Q W q_constr xx xx_dot uu hQ hqc hx hx' hul hu => ?_⟩
  obtain ⟨o, o1, o2, -, o3⟩ := hint Q W q_constr xx xx_dot uu hQ hqc hx.1 hul hu
  have hder : ∀ jj, ∃ a, interpolationsDerivTd lib q_constr xx xx_dot scheme jj t0 t1 N m "pol" n none = .ok a ∧
      SamplesAt Q order n_q jj (linspace t0 t1 n) a := by
    intro jj
    obtain ⟨nu', q1, q2⟩ := C111_deriv hs ho hm hN hq ht (pre := "") (Or.inl rfl) lib n none jj
    rw [h3] at q1; cases q1
    obtain ⟨a, a1, a2⟩ := q2 Q q_constr xx xx_dot hQ hqc hx.1
    exact ⟨a, by simpa using a1, a2⟩
  choose d hd1 hd2 using hder
  have hl := linspace_length t0 t1 n
  have o2' : SamplesAt Q order n_q 0 (linspace t0 t1 n) o.x := o2
  obtain ⟨errs, e1, e2⟩ := dynErrs_ok ho o2' (ds := (List.range order).map fun jj => d (jj + 1)) (by simp)
    (fun jj hjj => ⟨d (jj + 1), by simp [hjj], hd2 (jj + 1)⟩) hF (u := fun t c => (W c).eval t)
  rw [hl] at e1 e2
  have hstr : strip "TD_" scheme = scheme := by simpa using strip_td hs (pre := "") (Or.inl rfl)
  have hnq : n_q * order / order = n_q := Nat.mul_div_cancel _ (by omega)
  have hmap : ((List.range order).mapM fun jj => (do
      let d ← interpolationsDerivTd lib q_constr xx xx_dot scheme (jj + 1) t0 t1 N m "pol" n none
      return getXDivisions d order)) = (Except.ok ((List.range order).map fun jj => getXDivisions (d (jj + 1)) order)
        : Except PsErr _) :=
    Exc.mapM_eq fun jj _ => by simp only [hd1, bind, Except.bind, pure, Except.pure]
  refine ⟨_, errs, ?_, e2, fun i hi j hj => rfl, ?_⟩
  · rw [show ("" ++ scheme : String) = scheme by simp] at o1
    simp only [dynamicErrorTd, hstr, show order ≠ 0 by omega, if_false, hx.1, hnq, o1, bind, Except.bind, o3, hul]
    simp only [bind, Except.bind] at hmap
    rw [hmap]
    simp only [List.map_map] at e1
    exact e1
  · intro l hl' r hr hrm hdyn i hi hit j hj
    have hr' : r < (full.map fun τ => tauToT τ t0 t1).length := by simpa using hr
    have htr : arr (full.map fun τ => tauToT τ t0 t1) r = arr (linspace t0 t1 n) i := by
      rw [arr_map _ _ hr, hrm, hit]
    have e := hdyn j hj
    rw [hx'.2.2 r hr' (order - 1) (by omega) j hj, htr, Nat.sub_add_cancel ho,
      hF (rows xx.rows r) (stateAt Q n_q (arr (linspace t0 t1 n) i)) _ (by
        intro c hc; rw [← htr]; exact samples_state hx hr' c hc)] at e
    have eu : rows uu l = fun c => (W c).eval (arr (linspace t0 t1 n) i) := by
      funext c; rw [(hu c).2 l hl', hit]
    rw [eu] at e
    show (derivative^[order] (Q j)).eval (arr (linspace t0 t1 n) i) - _ = 0
    rw [e, sub_self]

/-- C64 fails if the order of the scheme is smaller than that of the problem (for example the default 2 for a problem of
third order): `dynamic_error_BU` does not return, whatever the data. -/
theorem C64_bu_order (lib : Lib) (xx xx_dot : Arr2) (uu : List Row) (scheme : String) (t0 t1 : ℝ) (F : Row → Row → Row)
    {order m : ℕ} (hm : m < order) (u_interp x_interp : String) (n : ℕ) (io : Option ℕ) (mode : String)
    (errs : List (List Arr2)) :
    dynamicErrorBu lib xx xx_dot uu scheme t1 F t0 order m u_interp x_interp n io mode ≠ .ok errs := by
  intro h
  unfold dynamicErrorBu at h
  simp only at h
  split_ifs at h
  obtain ⟨o, -, h⟩ := Exc.bind_ok h
  obtain ⟨ders, hd, h⟩ := Exc.bind_ok h
  unfold dynErrs errTable at h
  obtain ⟨y, -, h⟩ := Exc.bind_ok h
  obtain ⟨z, -, h⟩ := Exc.bind_ok h
  obtain ⟨l, -, h⟩ := (Exc.mapM_ok (l := List.range order) h).2 0 0 (List.getElem?_range (by omega))
  obtain ⟨a, -, h⟩ := (Exc.mapM_ok (l := List.range (order - 0)) h).2 m m (List.getElem?_range (by omega))
  obtain ⟨d0, d1, h⟩ := Exc.bind_ok h
  obtain ⟨b, h, -⟩ := Exc.bind_ok h
  obtain ⟨b', b1, hd⟩ := (Exc.mapM_ok (l := List.range order) hd).2 0 0 (List.getElem?_range (by omega))
  obtain ⟨a', -, hd⟩ := Exc.bind_ok hd
  cases hd
  simp only [getE, b1] at d1
  cases d1
  simp [getE, getXDivisions] at h

/-- C64 fails with the default order of the scheme for a problem of first order: for a single coordinate, `dynamic_error_BU`
returns an array without columns. -/
theorem C64_bu_default {scheme : String} (hs : scheme ∈ buImplemented) {N : ℕ} (hN : minPoints scheme ≤ N)
    {t0 t1 : ℝ} (ht : t0 ≠ t1) (lib : Lib) (n : ℕ) (F : Row → Row → Row) :
    ∃ coll full, buCollPoints N scheme 2 = .ok coll ∧ buArrPoints N scheme 2 = .ok full ∧
      ∀ (Q W : ℕ → ℝ[X]) (xx xx_dot : Arr2) (uu : List Row), (∀ j < 1, (Q j).degree < (1 + N : ℕ)) →
      SamplesAt Q 1 1 0 (full.map fun τ => tauToT τ t0 t1) xx →
      SamplesAt Q 1 1 1 (full.map fun τ => tauToT τ t0 t1) xx_dot →
      Through W N coll t0 t1 uu →
      ∃ a, dynamicErrorBu lib xx xx_dot uu scheme t1 F t0 1 2 "pol" "pol" n none "q" = .ok [[a]] ∧ a.width = 0 := by
  obtain ⟨coll, full, h1, h2, hint⟩ := C109_partial hs le_rfl (m := 2) (by norm_num) (Or.inl rfl) hN le_rfl ht
    (pre := "") (Or.inl rfl) lib n none
  refine ⟨coll, full, h1, h2, fun Q W xx xx_dot uu hQ hx hx' hu => ?_⟩
  obtain ⟨o, o1, o2, -, o3⟩ := hint Q W xx xx_dot uu hQ hx hx' hu
  obtain ⟨full', q1, q2⟩ := C110_partial hs le_rfl (m := 2) (by norm_num) (Or.inl rfl) hN le_rfl ht (pre := "")
    (Or.inl rfl) lib n none 1
  rw [h2] at q1; cases q1
  obtain ⟨d, d1, d2⟩ := q2 Q xx xx_dot hQ hx hx'
  have hl := linspace_length t0 t1 n
  have o2' : SamplesAt Q 1 1 0 (linspace t0 t1 n) o.x := o2
  have hstr : strip "BU_" scheme = scheme := by simpa using strip_bu hs (pre := "") (Or.inl rfl)
  have hne : xx.rows ≠ [] := by
    have h := hx.2.1
    intro he
    obtain ⟨coll', full', constr', s', -, q2, -, q3, -⟩ := bu_setup hs (m := 2) (by norm_num) hN
    rw [h2] at q2; cases q2
    rw [he, List.length_map, q3] at h
    simp at h
  obtain ⟨b, b1, b2⟩ := (divisions_eq le_rfl o2').2 0 (by norm_num)
  obtain ⟨y, y1, y2⟩ := setCols_ok (by norm_num) o2' b2
  simp only [mul_zero, zero_add, mul_one] at y1
  have hdw : d.width = 1 := d2.1
  have hdl : d.rows.length = n := d2.2.1.trans hl
  rw [show ("" ++ scheme : String) = scheme by simp] at o1 d1
  have hxd : (getXDivisions o.x 1).length = 1 := by simp [getXDivisions]
  have hdd : (getXDivisions d 2)[0]? = some ⟨0, d.rows.map fun r c => r (0 + c)⟩ := by simp [getXDivisions, hdw]
  have hmap : ((List.range 1).mapM fun jj => (do
      let d ← interpolationsDerivBu lib xx xx_dot scheme 1 (jj + 1) t0 t1 2 "pol" n none
      return getXDivisions d 2)) = (Except.ok [getXDivisions d 2] : Except PsErr _) := by
    simp [d1, bind, Except.bind, pure, Except.pure]
  simp only [bind, Except.bind] at hmap
  simp only [dynamicErrorBu, hstr, hne, show (1 : ℕ) ≠ 0 by omega, if_false, Option.getD_none, hx.1, o1, bind,
    Except.bind, hmap, one_mul, Nat.div_one]
  simp only [dynErrs, errTable, fillQ, getE, List.getElem?_cons_zero, b1, bind, Except.bind, mul_zero, zero_add, mul_one, y1, pickX,
    if_true]
  have hr : List.range 1 = [0] := rfl
  simp only [hr, List.mapM_cons, List.mapM_nil, bind, Except.bind, pure, Except.pure, Nat.sub_zero,
    List.getElem?_cons_zero, hdd, zero_add, List.getElem?_append_right (by rw [hxd] : (getXDivisions o.x 1).length ≤ 1),
    hxd, Nat.sub_self, bSub, bLen, List.length_map, hdl, List.length_range, if_true, show (0 : ℕ) ≠ 1 by omega, if_false]
  exact ⟨_, rfl, rfl⟩

/-- C64 fails in mode "x", which is documented for both functions: neither returns, whatever the data. An unknown mode is
refused. -/
theorem C64_mode_x (lib : Lib) (q_constr xx xx_dot : Arr2) (uu : List Row) (scheme : String) (t0 t1 : ℝ)
    (F : Row → Row → Row) (order m : ℕ) (u_interp x_interp : String) {n : ℕ} (hn : 1 ≤ n) (io : Option ℕ) {mode : String}
    (hmode : mode ≠ "q") (errs : List (List Arr2)) :
    dynamicErrorBu lib xx xx_dot uu scheme t1 F t0 order m u_interp x_interp n io mode ≠ .ok errs ∧
      dynamicErrorTd lib q_constr xx xx_dot uu scheme t1 F order t0 m u_interp x_interp n mode ≠ .ok errs := by
  have key : ∀ n_x n_q x divs ders u, dynErrs F n_x n_q order mode n x divs ders u ≠ .ok errs := by
    intro n_x n_q x divs ders u h
    unfold dynErrs errTable at h
    obtain ⟨y, -, h⟩ := Exc.bind_ok h
    obtain ⟨z, hz, -⟩ := Exc.bind_ok h
    unfold pickX at hz
    rw [if_neg hmode] at hz
    split_ifs at hz with h1 h2
    omega
  constructor
  · intro h
    unfold dynamicErrorBu at h
    simp only at h
    split_ifs at h
    obtain ⟨o, -, h⟩ := Exc.bind_ok h
    obtain ⟨ders, -, h⟩ := Exc.bind_ok h
    exact key _ _ _ _ _ _ h
  · intro h
    unfold dynamicErrorTd at h
    simp only at h
    split_ifs at h
    obtain ⟨o, -, h⟩ := Exc.bind_ok h
    obtain ⟨ders, -, h⟩ := Exc.bind_ok h
    exact key _ _ _ _ _ _ h

/-! ## C112 -/

/-- C112 fails for controls: "smooth" is documented, but unless the states are interpolated with "Hermite" neither function
returns, whatever the data. -/
theorem C112_smooth_refuted (lib : Lib) (q_constr xx xx_dot : Arr2) (uu : List Row) (scheme : String) (order : ℕ) (t0 t1 : ℝ)
    (m : ℕ) {x_interp : String} (hx : x_interp ≠ "Hermite") (n : ℕ) (given : Option (List ℝ)) (o : BuTdInterp.Out) :
    interpolationsBu lib xx xx_dot uu scheme order t0 t1 m "smooth" x_interp n given ≠ .ok o ∧
      interpolationsTd lib q_constr xx xx_dot uu scheme t0 t1 m "smooth" x_interp n given ≠ .ok o := by
  have key : ∀ p n_col scheme t_arr r,
      controls lib p uu n_col scheme m t0 t1 "smooth" x_interp t_arr ≠ .ok r := by
    intro p n_col scheme t_arr r h
    simp only [controls, show ("smooth" : String) ≠ "pol" by decide, show ("smooth" : String) ≠ "lin" by decide, if_false,
      if_true, hx] at h
    obtain ⟨a, -, h⟩ := Exc.bind_ok h
    obtain ⟨b, -, h⟩ := Exc.bind_ok h
    cases h
  constructor
  · intro h
    unfold interpolationsBu at h
    simp only at h
    split at h
    · cases h
    · split_ifs at h
      all_goals
        obtain ⟨s, -, h⟩ := Exc.bind_ok h
        obtain ⟨c, -, h⟩ := Exc.bind_ok h
      · obtain ⟨a, -, h⟩ := Exc.bind_ok h
        obtain ⟨b, -, h⟩ := Exc.bind_ok h
        obtain ⟨r, h, -⟩ := Exc.bind_ok h
        exact key _ _ _ _ _ h
      · obtain ⟨r, h, -⟩ := Exc.bind_ok h
        exact key _ _ _ _ _ h
  · intro h
    unfold interpolationsTd at h
    simp only at h
    split_ifs at h
    all_goals obtain ⟨c, -, h⟩ := Exc.bind_ok h
    · obtain ⟨a, -, h⟩ := Exc.bind_ok h
      obtain ⟨b, -, h⟩ := Exc.bind_ok h
      obtain ⟨r, h, -⟩ := Exc.bind_ok h
      exact key _ _ _ _ _ h
    · obtain ⟨r, h, -⟩ := Exc.bind_ok h
      exact key _ _ _ _ _ h

/-- The piece of a polyline in which an instant lies gives the value and the derivative there. -/
def OnPolyline (ts : List ℝ) (Y : List Row) (Ts : List ℝ) (d : ℕ) (r : List Row) : Prop :=
  r.length = Ts.length ∧ ∀ (i : ℕ) t, Ts[i]? = some t → ∀ j, j + 1 < ts.length → arr ts j < t → t ≤ arr ts (j + 1) →
    r[i]? = some (if d = 0 then lineOf ts Y j t else if d = 1 then slopeOf ts Y j else fun _ => 0)

theorem interp_polyline {ts : List ℝ} (hs : ts.Pairwise (· < ·)) {Y : List Row} (hl : ts.length = Y.length)
    (h1 : 1 ≤ ts.length) (Ts : List ℝ) : ∃ r, interp2d Ts ts Y = .ok r ∧ OnPolyline ts Y Ts 0 r := by
  obtain ⟨r, r1, r2, r3⟩ := interp2d_ok hl h1 Ts
  refine ⟨r, r1, r2, fun i t hi j hj h h' => ?_⟩
  rw [r3 i t hi _ (interp_piece hs hl hj h.le h'), if_pos rfl]

/-- There are polynomials for any values at the start and any values of the highest derivative. -/
theorem exists_motion {t0 t1 : ℝ} (ht : t0 ≠ t1) {N : ℕ} {taus : ℕ → ℝ} (hd : Distinct N taus) (order : ℕ)
    (x0 a : ℕ → ℝ) : ∃ R : ℝ[X], R.degree < (order + N : ℕ) ∧ (∀ k < order, (derivative^[k] R).eval t0 = x0 k) ∧
      ∀ i < N, (derivative^[order] R).eval (tauToT (taus i) t0 t1) = a i := by
  have hh := sub_ne_zero.2 ht.symm
  obtain ⟨A, hA⟩ : ∃ A, A = Lagrange.interpolate (range N) taus a := ⟨_, rfl⟩
  have hAd : A.degree < N := by
    rw [hA]; simpa using Lagrange.degree_interpolate_lt (r := a) hd.injOn
  refine ⟨traj t0 (t1 - t0) order x0 A, traj_degree hh order x0 hAd, fun k hk => ?_, fun i hi => ?_⟩
  · rw [traj_iter hh hk.le, traj_start (by omega)]; simp
  · rw [traj_highest hh, eval_comp, toTau_eval ht, hA, Lagrange.eval_interpolate_at_node _ hd.injOn (mem_range.2 hi)]

/-- `Polynomial_interpolations_BU` returns for any data of the right size. -/
theorem polysBu_ok {scheme : String} (hs : scheme ∈ buImplemented) {order N m : ℕ} (ho : 1 ≤ order)
    (hm : 1 ≤ m) (hN : minPoints scheme ≤ N) {full : List ℝ}
    (hfull : buArrPoints N scheme m = .ok full) {t0 t1 : ℝ} (ht : t0 ≠ t1) {n_q : ℕ} (hq : 1 ≤ n_q) {xx_dot : Arr2}
    (hl : xx_dot.rows.length = full.length) (x_0 : Row) :
    ∃ polys, polysBu xx_dot x_0 (n_q * order) scheme order t0 t1 = .ok polys := by
  obtain ⟨coll, full', constr, s, k1, k2, k3, hf, k6, hlen, hd, hsort, hle, hsl⟩ := bu_setup hs hm hN
  rw [hfull] at k2; cases k2
  obtain ⟨coll2, -, -, -, q1, -, -, -, -, q2, q3, -⟩ := bu_setup hs (m := 2) (by norm_num) hN
  have hlc : (lastCols xx_dot n_q).length = full.length := by simp [lastCols, hl]
  obtain ⟨p1, -⟩ := pySlice_rows hsl hlc
  choose R hR1 hR2 hR3 using fun j => exists_motion ht q3 order (fun k => x_0 (n_q * k + j))
    (fun i => rows (pySlice s.1 s.2 (lastCols xx_dot n_q)) i j)
  obtain ⟨polys, e, -⟩ := polysBu_gen ho (le_trans (minPoints_pos scheme) hN) q1 q2 q3 k6 ht hq (R := R)
    (fun j _ => hR1 j) (xx_dot := xx_dot) (x_0 := x_0) (fun k hk j _ => (hR2 j k hk).symm) (by rw [p1, hlen])
    (fun i hi j _ => (hR3 j i hi).symm)
  exact ⟨polys, e⟩

/-- Derivatives of a polyline. -/
theorem linDeriv_ok {ts : List ℝ} (hs : ts.Pairwise (· < ·)) {xx : Arr2} (hl : ts.length = xx.rows.length)
    (h2 : 2 ≤ ts.length) {Ts : List ℝ} (hT : ∀ t ∈ Ts, ∃ y ∈ ts, t ≤ y) (d : ℕ) (z : Arr2)
    (hz : 2 ≤ d → z.width = xx.width ∧ OnPolyline ts xx.rows Ts d z.rows) :
    ∃ a, linDeriv false Ts ts xx d z = .ok a ∧ a.width = xx.width ∧ OnPolyline ts xx.rows Ts d a.rows := by
  unfold linDeriv
  by_cases h0 : d = 0
  · obtain ⟨r, r1, r2⟩ := interp_polyline hs hl (by omega) Ts
    exact ⟨⟨xx.width, r⟩, by simp only [h0, if_true, r1, bind, Except.bind, pure, Except.pure], rfl, h0 ▸ r2⟩
  · by_cases h1 : d = 1
    · obtain ⟨r, r1⟩ := mapM_isOk (l := Ts) (f := fun t => findDerPolyline t ts xx.rows)
        (fun t h => find_der_ok hl h2 (hT t h))
      refine ⟨⟨xx.width, r⟩, by simp only [h1, if_true, one_ne_zero, if_false, Bool.false_eq_true, r1, bind, Except.bind, pure, Except.pure],
        rfl, (Exc.mapM_ok r1).1, fun i t hi j hj h h' => ?_⟩
      obtain ⟨b, b1, b2⟩ := (Exc.mapM_ok r1).2 i t hi
      rw [find_der hs hl hj (Or.inl h) h'] at b2
      cases b2
      rw [if_neg h0, if_pos h1]
      exact b1
    · exact ⟨z, by simp only [h0, h1, if_false], hz (by omega)⟩

theorem zero_polyline {ts : List ℝ} {Y : List Row} {Ts : List ℝ} {d : ℕ} (hd : 2 ≤ d) :
    OnPolyline ts Y Ts d (Ts.map fun _ _ => 0) := by
  refine ⟨by simp, fun i t hi j hj h h' => ?_⟩
  rw [if_neg (by omega), if_neg (by omega), List.getElem?_map, hi]
  rfl

/-- The sorted times of the rows, and that none of the instants lies after them. -/
theorem times_rows {full : List ℝ} (hsort : full.Pairwise (· < ·)) (hlast : full.getLast? = some 1) {t0 t1 : ℝ}
    (ht : t0 < t1) {Ts : List ℝ} (hT : ∀ t ∈ Ts, t ≤ t1) : (full.map fun τ => tauToT τ t0 t1).Pairwise (· < ·) ∧
      ∀ t ∈ Ts, ∃ y ∈ full.map fun τ => tauToT τ t0 t1, t ≤ y := by
  refine ⟨tauToT_sorted ht hsort, fun t h => ⟨t1, ?_, hT t h⟩⟩
  rw [List.mem_map]
  exact ⟨1, List.mem_of_getLast? hlast, by unfold tauToT; ring⟩

/-- C112: with linear interpolation, the states returned for a bottom-up result are those of the polyline through the data;
the derivative of the first order is the slope of the piece, and the higher ones are zero. The instants must not lie after
the end of the interval. -/
theorem C112_bu {scheme : String} (hs : scheme ∈ buImplemented) {order m : ℕ} (ho : 1 ≤ order) (hm : 1 ≤ m)
    {N : ℕ} (hN : minPoints scheme ≤ N) {t0 t1 : ℝ} (ht : t0 < t1) (lib : Lib) (n : ℕ)
    (given : Option (List ℝ)) (hT : ∀ t ∈ instants t0 t1 n given, t ≤ t1) :
    ∃ coll full, buCollPoints N scheme m = .ok coll ∧ buArrPoints N scheme m = .ok full ∧
      ∀ (xx xx_dot : Arr2) (uu : List Row) (d : ℕ), xx.rows.length = full.length → xx_dot.rows.length = full.length →
      (∃ (a : Arr2), interpolationsDerivBu lib xx xx_dot scheme order d t0 t1 m "lin" n given = .ok a ∧ a.width = xx.width ∧
        OnPolyline (full.map fun τ => tauToT τ t0 t1) xx.rows (instants t0 t1 n given) d a.rows) ∧
      ∀ (_ : m = 2 ∨ scheme ∉ jacobiSchemes) (n_q : ℕ) (_ : xx.width = n_q * order)
        (_ : 1 ≤ n_q) (W : ℕ → ℝ[X]) (_ : Through W N coll t0 t1 uu),
      ∃ o, interpolationsBu lib xx xx_dot uu scheme order t0 t1 m "pol" "lin" n given = .ok o ∧
        o.x.width = xx.width ∧ o.x_dot.width = xx_dot.width ∧
        OnPolyline (full.map fun τ => tauToT τ t0 t1) xx.rows (instants t0 t1 n given) 0 o.x.rows ∧
        OnPolyline (full.map fun τ => tauToT τ t0 t1) xx_dot.rows (instants t0 t1 n given) 0 o.x_dot.rows ∧
        o.u = (instants t0 t1 n given).map fun t c => (W c).eval t := by
  obtain ⟨coll, constr, full, s, k1, k2, k3, k4, hf, k5, k6, hsort, hlast, hlen, hd, hsl, -, -⟩ :=
    constr_length hs hm hN
  have hN1 : 1 ≤ N := le_trans (minPoints_pos scheme) hN
  have hl2 : 2 ≤ full.length := by
    rcases Nat.lt_or_ge full.length 2 with h | h
    · have : constr = [] := by
        cases constr with
        | nil => rfl
        | cons a l => rw [hf] at h; simp at h
      rw [hf, this] at hlast
      simp at hlast
      norm_num at hlast
    · exact h
  refine ⟨coll, full, k1, k4, fun xx xx_dot uu d hx hx' => ?_⟩
  obtain ⟨hts, hTs⟩ := times_rows hsort hlast ht hT
  obtain ⟨t_x, htx⟩ : ∃ t_x, t_x = full.map fun τ => tauToT τ t0 t1 := ⟨_, rfl⟩
  have htx' : (([-1] ++ constr).map fun τ => tauToT τ t0 t1) = t_x := by rw [htx, hf]; rfl
  have hlx : t_x.length = full.length := by rw [htx, List.length_map]
  have hstr : strip "BU_" scheme = scheme := by simpa using strip_bu hs (pre := "") (Or.inl rfl)
  have hlc : ∀ n_q, (pySlice s.1 s.2 (lastCols xx_dot n_q)).length = N := by
    intro n_q
    rw [(pySlice_rows hsl (l := lastCols xx_dot n_q) (by simp [lastCols, hx'])).1, hlen]
  obtain ⟨x_0, hx0⟩ : ∃ x_0, xx.rows[0]? = some x_0 := ⟨xx.rows[0], List.getElem?_eq_getElem (by omega)⟩
  rw [← htx] at hts hTs ⊢
  constructor
  · obtain ⟨a, a1, a2⟩ := linDeriv_ok hts (xx := xx) (hlx.trans hx.symm) (by omega) hTs d
      ⟨xx.width, (instants t0 t1 n given).map fun _ _ => 0⟩ (fun h => ⟨rfl, zero_polyline h⟩)
    refine ⟨a, ?_, a2⟩
    simp only [interpolationsDerivBu, hstr, hx0, show order ≠ 0 by omega, if_false, k6, PsInterp.lift, bind, Except.bind,
      hlc, k3, timesOf_snd, htx', show ("lin" : String) ≠ "pol" by decide, if_true, a1]
  · intro hj n_q hxw hq W hu
    have hc2 : buCollPoints N scheme = .ok coll := by
      rw [(bu_coll_eq hs N 2).1, ← coll_order (order := m) (by tauto)]; exact k2
    obtain ⟨polys, hp⟩ := polysBu_ok hs ho hm hN k4 ht.ne hq hx' x_0
    obtain ⟨r, r1, r2⟩ := interp_polyline hts (Y := xx.rows) (hlx.trans hx.symm) (by omega) (instants t0 t1 n given)
    obtain ⟨r', r1', r2'⟩ := interp_polyline hts (Y := xx_dot.rows) (hlx.trans hx'.symm) (by omega)
      (instants t0 t1 n given)
    refine ⟨⟨⟨xx.width, r⟩, ⟨xx_dot.width, r'⟩, (instants t0 t1 n given).map (polyAt coll t0 t1 (rows uu))⟩, ?_, rfl, rfl,
      r2, r2', ?_⟩
    · rw [← hxw] at hp
      simp only [interpolationsBu, hstr, hx0, show order ≠ 0 by omega, if_false, k6, PsInterp.lift, bind, Except.bind,
        hlc, k3, timesOf_snd, htx', show ("lin" : String) ≠ "pol" by decide, or_true, if_true, hp, polyU, hc2, pure,
        Except.pure, controls, states, r1, r1']
    · apply List.map_congr_left
      intro t _
      funext c
      obtain ⟨u1, u2⟩ := hu c
      exact polyAt_eq ht.ne (by omega) (hlen.symm ▸ hd) (by rw [hlen]; exact u1) (fun i hi => u2 i (by omega)) t

example : "JG" ∈ buImplemented ∧ minPoints "JG" ≤ 1 ∧ ∀ t ∈ instants 0 1 0 (some [0, 1 / 2]), t ≤ (1 : ℝ) := by
  refine ⟨by decide, by decide, fun t h => ?_⟩
  simp only [instants, List.mem_cons, List.not_mem_nil, or_false] at h
  rcases h with rfl | rfl <;> norm_num

/-- C112 for top-down results. Missing: the derivatives, see `C112_td_slope_refuted` and `C112_td_refuted`. -/
theorem C112_td_partial {scheme : String} (hs : scheme ∈ buImplemented) {order m : ℕ} (ho : 1 ≤ order) (hm : 1 ≤ m)
    {N : ℕ} (hN : minPoints scheme ≤ N) {t0 t1 : ℝ} (ht : t0 < t1) (lib : Lib) (n : ℕ)
    (given : Option (List ℝ)) (hT : ∀ t ∈ instants t0 t1 n given, t ≤ t1) :
    ∃ coll full, buCollPoints N scheme m = .ok coll ∧ tdConstructionPoints N scheme m = .ok full ∧
      ∀ (n_q : ℕ) (q_constr xx xx_dot : Arr2) (uu : List Row) (d : ℕ), 1 ≤ n_q → q_constr.width = n_q →
      q_constr.rows.length = order + N → xx.width = n_q * order →
      xx.rows.length = full.length → xx_dot.rows.length = full.length → uu.length = N →
      (d = 0 → ∃ (a : Arr2), interpolationsDerivTd lib q_constr xx xx_dot scheme d t0 t1 N m "lin" n given = .ok a ∧
        a.width = xx.width ∧
        OnPolyline (full.map fun τ => tauToT τ t0 t1) xx.rows (instants t0 t1 n given) d a.rows) ∧
      ∀ (W : ℕ → ℝ[X]) (_ : Through W N coll t0 t1 uu),
      ∃ o, interpolationsTd lib q_constr xx xx_dot uu scheme t0 t1 m "pol" "lin" n given = .ok o ∧
        o.x.width = xx.width ∧ o.x_dot.width = xx_dot.width ∧
        OnPolyline (full.map fun τ => tauToT τ t0 t1) xx.rows (instants t0 t1 n given) 0 o.x.rows ∧
        OnPolyline (full.map fun τ => tauToT τ t0 t1) xx_dot.rows (instants t0 t1 n given) 0 o.x_dot.rows ∧
        o.u = (instants t0 t1 n given).map fun t c => (W c).eval t := by
  obtain ⟨coll, constr, full, s, k1, k2, k3, k4, hf, k5, k6, hsort, hlast, hlen, hd, hsl, -, -⟩ :=
    constr_length hs hm hN
  have hN1 : 1 ≤ N := le_trans (minPoints_pos scheme) hN
  have hl2 : 2 ≤ full.length := by
    rcases Nat.lt_or_ge full.length 2 with h | h
    · have : constr = [] := by
        cases constr with
        | nil => rfl
        | cons a l => rw [hf] at h; simp at h
      rw [hf, this] at hlast
      simp at hlast
      norm_num at hlast
    · exact h
  obtain ⟨nu, n1, n2, n3, n4⟩ := lgl_points (n := order + N) (by omega)
  have hD : matrixDNu (order + N) = .ok (dMat (order + N) (arr nu) (vSum (order + N) (arr nu))) := by
    simp [matrixDNu, matrixDBary, n2, n3, bind, Except.bind, pure, Except.pure]
  refine ⟨coll, full, k1, k5, fun n_q q_constr xx xx_dot uu d hq c1 c2 hxw hx hx' hul => ?_⟩
  obtain ⟨hts, hTs⟩ := times_rows hsort hlast ht hT
  obtain ⟨t_x, htx⟩ : ∃ t_x, t_x = full.map fun τ => tauToT τ t0 t1 := ⟨_, rfl⟩
  have hlx : t_x.length = full.length := by rw [htx, List.length_map]
  have hstr : strip "TD_" scheme = scheme := by simpa using strip_td hs (pre := "") (Or.inl rfl)
  have hnq : n_q * order / n_q = order := Nat.mul_div_cancel_left _ (by omega)
  rw [← htx] at hts hTs ⊢
  constructor
  · rintro rfl
    obtain ⟨r, r1, r2⟩ := interp_polyline hts (Y := xx.rows) (hlx.trans hx.symm) (by omega) (instants t0 t1 n given)
    refine ⟨⟨xx.width, r⟩, ?_, rfl, r2⟩
    simp only [interpolationsDerivTd, hstr, c1, c2, hxw, hnq, show n_q ≠ 0 by omega, if_false, k5, n1, PsInterp.lift, bind,
      Except.bind, timesOf_snd, ← htx, show ("lin" : String) ≠ "pol" by decide, if_true, ne_eq, not_true, linDeriv, r1, pure,
      Except.pure]
  · intro W hu
    obtain ⟨r, r1, r2⟩ := interp_polyline hts (Y := xx.rows) (hlx.trans hx.symm) (by omega) (instants t0 t1 n given)
    obtain ⟨r', r1', r2'⟩ := interp_polyline hts (Y := xx_dot.rows) (hlx.trans hx'.symm) (by omega)
      (instants t0 t1 n given)
    refine ⟨⟨⟨n_q * order, r⟩, ⟨xx_dot.width, r'⟩, (instants t0 t1 n given).map (polyAt coll t0 t1 (rows uu))⟩, ?_,
      hxw.symm, rfl, r2, r2', ?_⟩
    · simp only [interpolationsTd, hstr, c1, c2, hxw, hul, hnq, show n_q ≠ 0 by omega, if_false, k5, PsInterp.lift, bind,
        Except.bind, timesOf_snd, ← htx, show ("lin" : String) ≠ "pol" by decide, or_true, if_true, ne_eq, not_true,
        polysTd, polyU, k1, n1, hD, pure, Except.pure, controls, states, r1, r1']
    · apply List.map_congr_left
      intro t _
      funext c
      obtain ⟨u1, u2⟩ := hu c
      exact polyAt_eq ht.ne (by omega) (hlen.symm ▸ hd) (by rw [hlen]; exact u1) (fun i hi => u2 i (by omega)) t

/-- C112 fails for the first derivative of top-down results, which raises for all inputs. -/
theorem C112_td_slope_refuted (lib : Lib) (q_constr xx xx_dot : Arr2) (scheme : String) (t0 t1 : ℝ) (N m n : ℕ) (given : Option (List ℝ)) :
    ∃ e, interpolationsDerivTd lib q_constr xx xx_dot scheme 1 t0 t1 N m "lin" n given = .error e := by
  cases h : interpolationsDerivTd lib q_constr xx xx_dot scheme 1 t0 t1 N m "lin" n given with
  | error e => exact ⟨e, rfl⟩
  | ok a =>
    simp only [interpolationsDerivTd, show ("lin" : String) ≠ "pol" by decide, if_false, if_true, linDeriv, one_ne_zero] at h
    split_ifs at h
    obtain ⟨c, -, h⟩ := Exc.bind_ok h
    obtain ⟨nu, -, h⟩ := Exc.bind_ok h
    cases h

/-- So the dynamic errors of top-down results cannot be computed with linear interpolation. -/
theorem C112_td_error_refuted (lib : Lib) (q_constr xx xx_dot : Arr2) (uu : List Row) (scheme : String) (tf : ℝ) (F : Row → Row → Row) (problem_order : ℕ) (t0 : ℝ)
    (m : ℕ) (u_interp : String) (n : ℕ) (mode : String) :
    ∃ e, dynamicErrorTd lib q_constr xx xx_dot uu scheme tf F problem_order t0 m u_interp "lin" n mode = .error e := by
  cases h : dynamicErrorTd lib q_constr xx xx_dot uu scheme tf F problem_order t0 m u_interp "lin" n mode with
  | error e => exact ⟨e, rfl⟩
  | ok a =>
    simp only [dynamicErrorTd] at h
    split_ifs at h with h0
    obtain ⟨o, -, h⟩ := Exc.bind_ok h
    obtain ⟨ders, h2, h⟩ := Exc.bind_ok h
    obtain ⟨b, -, h3⟩ := (Exc.mapM_ok h2).2 0 0 (by rw [List.getElem?_range (by omega)])
    obtain ⟨d, h4, -⟩ := Exc.bind_ok h3
    obtain ⟨e, he⟩ := C112_td_slope_refuted lib q_constr xx xx_dot (strip "TD_" scheme) t0 tf uu.length m n none
    rw [zero_add, he] at h4
    cases h4

/-- C112 fails for the second and higher derivatives of top-down results: there is one row for each row of the data, whatever
the number of instants asked for. -/
theorem C112_td_refuted (lib : Lib) (q_constr xx xx_dot : Arr2) (scheme : String) {d : ℕ} (hd : 2 ≤ d) (t0 t1 : ℝ)
    (N m : ℕ) (n : ℕ) (given : Option (List ℝ)) (a : Arr2)
    (h : interpolationsDerivTd lib q_constr xx xx_dot scheme d t0 t1 N m "lin" n given = .ok a) :
    a.rows.length = xx.rows.length := by
  simp only [interpolationsDerivTd, show ("lin" : String) ≠ "pol" by decide, if_false, if_true, linDeriv,
    show d ≠ 0 by omega, show d ≠ 1 by omega] at h
  split_ifs at h
  obtain ⟨c, -, h⟩ := Exc.bind_ok h
  obtain ⟨nu, -, h⟩ := Exc.bind_ok h
  cases h
  simp

example (lib : Lib) : ∃ a, interpolationsDerivTd lib ⟨1, [0, 0, 0]⟩ ⟨1, [0, 0]⟩ ⟨1, [0, 0]⟩ "LGL" 2 0 1 2 2 "lin" 5 none
    = .ok a := by
  obtain ⟨coll, full, nu, D, k1, k2, n1, -⟩ := td_setup (scheme := "LGL") (by decide) (order := 1) (m := 2) (N := 2) le_rfl
    (by norm_num) (by decide) (t0 := 0) (t1 := 1) (by norm_num)
  have hstr : strip "TD_" "LGL" = "LGL" := by decide
  simp only [show 1 + 2 = 3 from rfl] at n1
  simp [interpolationsDerivTd, hstr, k2, n1, PsInterp.lift, bind, Except.bind, linDeriv]

end Chords.Props
