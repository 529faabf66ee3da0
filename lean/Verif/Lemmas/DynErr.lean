import Verif.Model.DynErr
import Verif.Props.InterpCall
import Verif.Props.BuTdErr

namespace Chords.DynErr
open Chords.Interp Chords.Interp.Props Chords.PsInterp Chords.BuTdInterp Chords.Spec Chords.Props
open Chords.Ph (linspace)

/-- An array with `n` rows, `w` columns and given entries. -/
def Holds (n w : ℕ) (g : ℕ → ℕ → ℝ) (a : Arr2) : Prop :=
  a.width = w ∧ a.rows.length = n ∧ ∀ i < n, ∀ c < w, rows a.rows i c = g i c

theorem setCols_holds {n w : ℕ} {g g' : ℕ → ℕ → ℝ} {x b : Arr2} (hx : Holds n w g x) {a dim : ℕ} (hle : a + dim ≤ w)
    (hb : Holds n dim g' b) : ∃ y, setCols x a (a + dim) b = .ok y ∧
      Holds n w (fun i c => if a ≤ c ∧ c < a + dim then g' i (c - a) else g i c) y := by
  obtain ⟨x1, x2, x3⟩ := hx
  obtain ⟨b1, b2, b3⟩ := hb
  have hw : min x.width (a + dim) - min x.width a = dim := by rw [x1]; omega
  refine ⟨⟨x.width, (List.range x.rows.length).map fun i c =>
      if a ≤ c ∧ c < a + dim then rows b.rows (bIdx b.rows.length i) (bIdx b.width (c - a)) else rows x.rows i c⟩, ?_,
    x1, by simpa using x2, fun i hi c hc => ?_⟩
  · simp only [setCols, hw, b1, b2, x2, true_or, and_self, if_true]
  · have : rows ((List.range x.rows.length).map fun i c =>
      if a ≤ c ∧ c < a + dim then rows b.rows (bIdx b.rows.length i) (bIdx b.width (c - a)) else rows x.rows i c) i c
      = if a ≤ c ∧ c < a + dim then rows b.rows (bIdx b.rows.length i) (bIdx b.width (c - a)) else rows x.rows i c := by
      simp [rows, x2, hi]
    rw [this]
    dsimp only
    split_ifs with h
    · rw [b1, b2, bIdx_eq hi, bIdx_eq (by omega), b3 i hi _ (by omega)]
    · exact x3 i hi c hc

theorem divs_holds {n order dim : ℕ} (ho : 1 ≤ order) {g : ℕ → ℕ → ℝ} {a : Arr2} (ha : Holds n (order * dim) g a) :
    (getXDivisions a order).length = order ∧ ∀ k < order, ∃ b, (getXDivisions a order)[k]? = some b ∧
      Holds n dim (fun i c => g i (dim * k + c)) b := by
  obtain ⟨w1, w2, w3⟩ := ha
  have hnq : order * dim / order = dim := Nat.mul_div_cancel_left _ (by omega)
  refine ⟨by simp [getXDivisions], fun k hk => ⟨⟨dim, a.rows.map fun r c => r (dim * k + c)⟩, ?_, rfl, by simpa using w2,
    fun i hi j hj => ?_⟩⟩
  · simp [getXDivisions, w1, hnq, hk]
  · dsimp only
    rw [← w3 i hi (dim * k + j) (Interp.idx_lt hk hj)]
    simp [rows, w2, hi]

theorem fillQ_holds {n order dim : ℕ} {g : ℕ → ℕ → ℕ → ℝ} {x : Arr2} (hx : Holds n (order * dim) (g 0) x)
    {l : List (List Arr2)} (hl : ∀ k < order, ∃ m b, l[k]? = some m ∧ m[0]? = some b ∧ Holds n dim (g k) b) :
    ∀ k ≤ order, ∃ y, fillQ dim l x k = .ok y ∧
      Holds n (order * dim) (fun i c => if c < dim * k then g (c / dim) i (c % dim) else g 0 i c) y := by
  intro k
  induction k with
  | zero => intro _; exact ⟨x, rfl, by simpa using hx⟩
  | succ k ih =>
    intro hk
    obtain ⟨y, h1, h2⟩ := ih (by omega)
    obtain ⟨m, b, m1, m2, m3⟩ := hl k (by omega)
    have hle : dim * k + dim ≤ order * dim := by
      have := Nat.mul_le_mul_right dim hk
      nlinarith
    obtain ⟨z, z1, z2⟩ := setCols_holds h2 hle m3
    refine ⟨z, by simp only [fillQ, h1, getE, m1, m2, bind, Except.bind, mul_add, mul_one, z1], z2.1, z2.2.1,
      fun i hi c hc => ?_⟩
    rw [z2.2.2 i hi c hc]
    dsimp only
    rw [mul_add, mul_one]
    by_cases h : dim * k ≤ c ∧ c < dim * k + dim
    · rw [if_pos h, if_pos h.2]
      have e : c = dim * k + (c - dim * k) := by omega
      rw [show c / dim = k by rw [e]; exact Interp.idx_div (by omega),
        show c % dim = c - dim * k by conv_lhs => rw [e]
                                      exact Interp.idx_mod (by omega)]
    · rw [if_neg h]
      by_cases h' : c < dim * k
      · rw [if_pos h', if_pos (by omega)]
      · rw [if_neg h', if_neg (by omega)]

/-- The list of lists of errors: item `jj` has `order - jj` arrays, item `ii` of it has the entries `E jj ii`. -/
def Table (order dim n : ℕ) (E : ℕ → ℕ → ℕ → ℕ → ℝ) (errs : List (List Arr2)) : Prop :=
  errs.length = order ∧ ∀ jj < order, ∃ l, errs[jj]? = some l ∧ l.length = order - jj ∧ ∀ ii < order - jj,
    ∃ a, l[ii]? = some a ∧ Holds n dim (E jj ii) a

theorem errTable_holds {n order dim : ℕ} {g : ℕ → ℕ → ℕ → ℝ} {f : ℕ → ℕ → ℝ} {xd : List Arr2} {ders : List (List Arr2)}
    {fi : Arr2} (hxl : xd.length = order)
    (hx : ∀ k < order, ∃ b, xd[k]? = some b ∧ Holds n dim (fun i c => g 0 i (dim * k + c)) b)
    (hd : ∀ jj < order, ∃ l, ders[jj]? = some l ∧ ∀ k < order, ∃ b, l[k]? = some b ∧
      Holds n dim (fun i c => g (jj + 1) i (dim * k + c)) b)
    (hf : Holds n dim f fi) :
    ∃ errs, errTable order xd ders fi = .ok errs ∧ Table order dim n (fun jj ii i j => g (jj + 1) i (dim * ii + j)
      - if ii + jj + 1 < order then g 0 i (dim * (ii + jj + 1) + j) else f i j) errs := by
  have hitem : ∀ jj ii, ∃ a, ii + jj < order → (do
      let l ← getE ders jj
      let a ← getE l ii
      let b ← getE (xd ++ [fi]) (ii + jj + 1)
      bSub a b) = .ok a ∧ Holds n dim (fun i j => g (jj + 1) i (dim * ii + j)
        - if ii + jj + 1 < order then g 0 i (dim * (ii + jj + 1) + j) else f i j) a := by
    intro jj ii
    by_cases hij : ii + jj < order
    · obtain ⟨l, l1, l2⟩ := hd jj (by omega)
      obtain ⟨a, a1, a2, a3, a4⟩ := l2 ii (by omega)
      obtain ⟨b, b1, b2, b3, b4⟩ : ∃ b, (xd ++ [fi])[ii + jj + 1]? = some b ∧ Holds n dim (fun i j =>
          if ii + jj + 1 < order then g 0 i (dim * (ii + jj + 1) + j) else f i j) b := by
        by_cases h : ii + jj + 1 < order
        · obtain ⟨b, b1, b2⟩ := hx (ii + jj + 1) h
          refine ⟨b, by rw [List.getElem?_append_left (by omega), b1], ?_⟩
          simpa only [h, if_true] using b2
        · refine ⟨fi, ?_, ?_⟩
          · rw [List.getElem?_append_right (by omega), hxl, show ii + jj + 1 - order = 0 by omega]; simp
          · simpa only [h, if_false] using hf
      obtain ⟨r, r1, r2, r3, r4⟩ := bSub_ok a2 b2 a3 b3
      refine ⟨r, fun _ => ⟨?_, r2, r3, fun i hi j hj => ?_⟩⟩
      · simp only [getE, l1, a1, b1, bind, Except.bind, r1]
      · rw [r4 i hi j hj, a4 i hi j hj, b4 i hi j hj]
    · exact ⟨fi, fun h => absurd h hij⟩
  choose q hq using hitem
  refine ⟨(List.range order).map fun jj => (List.range (order - jj)).map (q jj), ?_, by simp, fun jj hjj =>
    ⟨(List.range (order - jj)).map (q jj), by simp [hjj], by simp, fun ii hii => ⟨q jj ii, by simp [hii], ?_⟩⟩⟩
  · refine Exc.mapM_eq fun jj hjj => Exc.mapM_eq fun ii hii => (hq jj ii ?_).1
    have := List.mem_range.1 hjj
    have := List.mem_range.1 hii
    omega
  · exact (hq jj ii (by omega)).2

section
variable {d : ℕ} {W : Type}

theorem toArr2_holds (l : List (Arr d)) : Holds l.length d (fun i c => coord (l.getD i 0) c) (toArr2 l) := by
  refine ⟨rfl, by simp [toArr2], fun i hi c _ => ?_⟩
  simp [toArr2, rows, hi, at'_eq]

variable [AddCommGroup W] [Module ℝ W] {lib : Interp.Lib d W} {X : List (Arr d)} {U : List W} {h : ℝ} {ts : List ℝ}
  {f : Arr d → W → Arr d} {scheme : String}

/-- On a new dictionary both functions make the same additions. -/
theorem missing_lin_none {sp : Params d W} (h1 : sp.u_c = none) {F : Option (Arr d → W → Arr d)}
    {X_dot : Option (List (Arr d))} {flat : Bool} :
    missing flat X U h F X_dot scheme "lin" sp = missing flat X U h F X_dot scheme "None" sp := by
  have e : fillUc scheme "lin" U sp = fillUc scheme "None" U sp := by
    simp [fillUc, h1, show pyIn "parab" "lin" = false by decide, show pyIn "parab" "None" = false by decide]
  unfold missing
  rw [e]

/-- A call for a derivative after the call for the states, with the same dictionary, gives what it gives with the dictionary
as it was before. -/
theorem derivative_after {sp : Params d W} (h1 : sp.u_c = none) {r : List (Arr d) × List W} {out o : Option (Params d W)}
    {F : Option (Arr d → W → Arr d)} {X_dot : Option (List (Arr d))} {flat : Bool}
    (e : interpolatedArray lib flat X U h ts F X_dot scheme "lin" (some sp) = .ok (r, out)) {k : ℕ} {v : List (Arr d)}
    (e' : interpolatedDerivative lib flat X U h ts F X_dot scheme k (some sp) = .ok (v, o)) :
    interpolatedDerivative lib flat X U h ts F X_dot scheme k out = .ok (v, out) := by
  obtain ⟨xs, us⟩ := r
  rw [array_iff] at e
  rw [derivative_iff] at e' ⊢
  obtain ⟨-, U1, t1, Xd1, sp1, a1, a2, -, -, rfl⟩ := e
  obtain ⟨acc, U2, t2, Xd2, sp2, b1, b2, b3, rfl⟩ := e'
  rw [a1] at b1
  obtain ⟨rfl, rfl⟩ := Prod.mk.inj (Except.ok.inj b1)
  simp only [Option.getD_some] at a2 b2
  rw [missing_lin_none h1, b2] at a2
  obtain ⟨rfl, rfl⟩ := Prod.mk.inj (Except.ok.inj a2)
  exact ⟨acc, U1, t1, Xd2, sp2, a1, missing_again b2 _, b3, rfl⟩

theorem derivs_after {sp : Params d W} (h1 : sp.u_c = none) {r : List (Arr d) × List W} {out : Option (Params d W)}
    {X_dot : Option (List (Arr d))} {order : ℕ}
    (e : interpolatedArray lib false X U h ts (some f) X_dot scheme "lin" (some sp) = .ok (r, out)) {v : ℕ → List (Arr d)}
    {m : ℕ} (hv : ∀ k < m, ∃ o, interpolatedDerivative lib false X U h ts (some f) X_dot scheme (k + 1) (some sp) = .ok (v k, o)) :
    derivs lib X U h ts f X_dot scheme order out m
      = .ok ((List.range m).map fun k => getXDivisions (toArr2 (v k)) order, out) := by
  induction m with
  | zero => rfl
  | succ m ih =>
    obtain ⟨o, ho⟩ := hv m (by omega)
    simp only [derivs, ih fun k hk => hv k (by omega), derivative_after h1 e ho, liftP, bind, Except.bind, pure, Except.pure,
      List.range_succ, List.map_append, List.map_cons, List.map_nil]

/-- The state that is given to the dynamics. -/
def inF (mode : String) (dim : ℕ) (xs : List (Arr d)) (v : ℕ → List (Arr d)) (i : ℕ) : Arr d :=
  if mode = "x" then xs.getD i 0
  else fun c => if c.val / dim = 0 then coord (xs.getD i 0) (c.val % dim)
    else coord ((v (c.val / dim - 1)).getD i 0) (c.val % dim)

theorem dynamicError_ok {order dim n : ℕ} (ho : 1 ≤ order) (hd : d = order * dim) (hX : X.length ≠ 1)
    {t_end : ℝ} {X_dot : Option (List (Arr d))} {sp? : Option (Params d W)} (hf : Fresh sp?) {xs : List (Arr d)} {us : List W}
    {mode : String} (hm : mode = "q" ∨ mode = "x")
    (hh : h = t_end / ((X.length : ℝ) - 1)) (hxs : xs.length = n) {out : Option (Params d W)}
    (e : interpolatedArray lib false X U h (linspace 0 t_end n) (some f) X_dot scheme "lin"
      (some { sp?.getD Params.empty with order := some order }) = .ok ((xs, us), out)) {v : ℕ → List (Arr d)}
    (hv : ∀ k < order, (v k).length = n ∧ ∃ o, interpolatedDerivative lib false X U h (linspace 0 t_end n) (some f) X_dot scheme
      (k + 1) (some { sp?.getD Params.empty with order := some order }) = .ok (v k, o)) :
    ∃ errs, dynamicError lib X U t_end f X_dot scheme "lin" sp? n order mode = .ok (errs, sp?.bind fun _ => out) ∧
      Table order dim n (fun jj ii i j => coord ((v jj).getD i 0) (dim * ii + j) - if ii + jj + 1 < order then
        coord (xs.getD i 0) (dim * (ii + jj + 1) + j)
        else coord (f (inF mode dim xs v i) (us.getD i 0)) (dim * (order - 1) + j)) errs := by
  have hdim : d / order = dim := by rw [hd]; exact Nat.mul_div_cancel_left _ (by omega)
  obtain ⟨g, hg⟩ : ∃ g : ℕ → ℕ → ℕ → ℝ, g = fun k i c => if k = 0 then coord (xs.getD i 0) c
    else coord ((v (k - 1)).getD i 0) c := ⟨_, rfl⟩
  have hx : Holds n (order * dim) (g 0) (toArr2 xs) := by
    have := toArr2_holds xs
    rw [hxs] at this
    rw [hg, ← hd]
    simpa using this
  have hvh : ∀ k < order, Holds n (order * dim) (g (k + 1)) (toArr2 (v k)) := by
    intro k hk
    have := toArr2_holds (v k)
    rw [(hv k hk).1] at this
    rw [hg, ← hd]
    simpa using this
  obtain ⟨x1, x2⟩ := divs_holds ho hx
  have hder : ∀ jj < order, ∃ l, ((List.range order).map fun k => getXDivisions (toArr2 (v k)) order)[jj]? = some l ∧
      ∀ k < order, ∃ b, l[k]? = some b ∧ Holds n dim (fun i c => g (jj + 1) i (dim * k + c)) b := by
    intro jj hjj
    exact ⟨_, by simp [hjj], (divs_holds ho (hvh jj hjj)).2⟩
  obtain ⟨y, y1, y2⟩ := fillQ_holds hx (l := getXDivisions (toArr2 xs) order ::
      (List.range order).map fun k => getXDivisions (toArr2 (v k)) order) (by
    intro k hk
    cases k with
    | zero =>
      obtain ⟨b, b1, b2⟩ := x2 0 (by omega)
      exact ⟨_, b, rfl, b1, by simpa using b2⟩
    | succ k =>
      obtain ⟨l, l1, l2⟩ := hder k (by omega)
      obtain ⟨b, b1, b2⟩ := l2 0 (by omega)
      exact ⟨l, b, l1, b1, by simpa using b2⟩) order le_rfl
  obtain ⟨z, z1, z2⟩ : ∃ z, pickXF mode y (toArr2 xs) = .ok z ∧ ∀ i < n, (ofRow (rows z.rows i) : Arr d) = inF mode dim xs v i := by
    rcases hm with rfl | rfl
    · refine ⟨y, rfl, fun i hi => ?_⟩
      funext c
      have hc : c.val < order * dim := hd ▸ c.isLt
      have := y2.2.2 i hi c.val hc
      dsimp only at this
      rw [if_pos (by rw [mul_comm]; exact hc)] at this
      simp only [ofRow, this, inF, show ("q" : String) ≠ "x" by decide, if_false, hg]
    · refine ⟨toArr2 xs, rfl, fun i hi => ?_⟩
      funext c
      have hc : c.val < order * dim := hd ▸ c.isLt
      have := hx.2.2 i hi c.val hc
      simp only [ofRow, this, inF, if_true, hg, coord, c.isLt, dif_pos]
  obtain ⟨fi, hfi⟩ : ∃ fi : Arr2, fi = ⟨dim, (List.range n).map fun ii c =>
      at' (f (ofRow (rows z.rows ii)) (us.getD ii 0)) (d - dim + c)⟩ := ⟨_, rfl⟩
  have hf' : Holds n dim (fun i j => coord (f (inF mode dim xs v i) (us.getD i 0)) (dim * (order - 1) + j)) fi := by
    rw [hfi]
    refine ⟨rfl, by simp, fun i hi j hj => ?_⟩
    have e1 : d - dim + j = dim * (order - 1) + j := by
      rw [hd]
      obtain ⟨m, rfl⟩ : ∃ m, order = m + 1 := ⟨order - 1, by omega⟩
      rw [Nat.add_sub_cancel, add_mul, one_mul, Nat.add_sub_cancel, mul_comm]
    dsimp only
    rw [← z2 i hi]
    simp [rows, hi, at'_eq, e1]
  obtain ⟨errs, t1, t2⟩ := errTable_holds (ders := (List.range order).map fun k => getXDivisions (toArr2 (v k)) order)
    x1 x2 hder hf'
  refine ⟨errs, ?_, ?_⟩
  · have hfr : ({ sp?.getD Params.empty with order := some order } : Params d W).u_c = none := (fresh_getD hf).1
    have hde := derivs_after (order := order) hfr e (fun k hk => (hv k hk).2)
    subst hh
    simp only [dynamicError, show order ≠ 0 by omega, hX, or_self, if_false, e, liftP, bind, Except.bind, hdim, hde, y1, z1,
      ← hfi, t1, pure, Except.pure]
  · rw [hg] at t2
    simpa using t2

end
end Chords.DynErr
