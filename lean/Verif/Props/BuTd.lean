import Verif.Lemmas.BuTd
import Verif.Props.Gauss

/-! # Properties of the bottom-up and top-down problems: C29, C30, C31 -/

namespace Chords.Props
open Finset Polynomial Chords.Points Chords.Spec Chords.Bary Chords.Gauss Chords.TimeScale Chords.BuTd

/-! ## C29 -/

/-- C29: the integration matrix of level `P` reconstructs the `P`-th derivative of the one polynomial that has the given
initial conditions and whose highest derivative takes the given values at the collocation points. -/
theorem C29_matrix {scheme : String} (hs : scheme ∈ buImplemented) {P M : ℕ} (hP : P < M) {N : ℕ}
    (hN : minPoints scheme ≤ N) (h1 : 2 ≤ N ∨ scheme ∉ gaussLike) {h : ℝ} (hh : h ≠ 0) :
    ∃ coll constr mat, buCollPoints N scheme M = .ok coll ∧ buConstructionPoints N scheme M = .ok constr ∧
      integrationMatrix N scheme P h M = .ok mat ∧ ∀ (t0 : ℝ) (x0 a : ℕ → ℝ),
      (∃! Q : ℝ[X], Q.degree < (M + N : ℕ) ∧ (∀ k < M, (derivative^[k] Q).eval t0 = x0 k) ∧
        ∀ j < N, (derivative^[M] Q).eval (tauToT (arr coll j) t0 (t0 + h)) = a j) ∧
      ∀ Q : ℝ[X], Q.degree < (M + N : ℕ) → (∀ k < M, (derivative^[k] Q).eval t0 = x0 k) →
        (∀ j < N, (derivative^[M] Q).eval (tauToT (arr coll j) t0 (t0 + h)) = a j) →
        ∀ i < constr.length, ∑ c ∈ range (M + N), mat i c * (if c < M then x0 c else a (c - M))
          = (derivative^[P] Q).eval (tauToT (arr constr i) t0 (t0 + h)) := by
  obtain ⟨coll, constr, full, s, k1, k2, k3, -, -, -, -, -, -, -, hd, -, -, hl⟩ :=
    constr_length hs (order := M) (by omega) hN
  obtain ⟨mat, m0, m1, m2, m3⟩ := integrationMatrix_ok hs hP hN h1 h k2 hd k3 hl
  refine ⟨coll, constr, mat, k1, k3, m0, fun t0 x0 a => ?_⟩
  have ht : t0 ≠ t0 + h := by simpa using hh
  have e : t0 + h - t0 = h := by ring
  obtain ⟨s1, s2, s3⟩ := traj_spec ht hd (M := M) x0 a
  refine ⟨⟨_, ⟨s1, s2, fun j hj => ?_⟩, fun Q hQ => traj_unique ht hd hQ.1 hQ.2.1 hQ.2.2⟩, ?_⟩
  · rw [s3, Lagrange.eval_interpolate_at_node _ hd.injOn (mem_range.2 hj)]
  · intro Q q1 q2 q3 i _
    rw [traj_unique ht hd q1 q2 q3]
    exact row_eq ht hP (arr constr i) x0 a (m1 i) (by rw [e]; exact m2 i) (by rw [e]; exact m3 i)

example : "LGR" ∈ buImplemented ∧ 1 < 3 ∧ minPoints "LGR" ≤ 1 ∧ "LGR" ∉ gaussLike := by decide

/-- C29: with one collocation point of a Gauss scheme the matrix cannot be built, for any level: the assignment of the
integrated polynomials raises. -/
theorem C29_one_gauss {scheme : String} (hs : scheme ∈ gaussLike) {P M : ℕ} (hP : P < M) (h : ℝ) :
    integrationMatrix 1 scheme P h M = .error .broadcast := by
  have hbu : scheme ∈ buImplemented := by simp [buImplemented, hs]
  have hN : minPoints scheme ≤ 1 := by
    simp only [gaussLike, List.mem_cons, List.not_mem_nil, or_false] at hs
    rcases hs with rfl | rfl | rfl <;> decide
  obtain ⟨coll, constr, full, s, k1, k2, k3, -, -, -, -, -, -, -, hd, -, hl, -⟩ :=
    constr_length hbu (order := M) (by omega) hN
  obtain ⟨g, hg, hgd, -⟩ := lagInteg2d_eq le_rfl k2 hd (M - P)
  rw [if_pos ⟨rfl, by omega⟩] at hgd
  have := hl hs
  unfold integrationMatrix
  rw [if_pos hP]
  simp only [k3, hg, lift, bind, Except.bind, pure, Except.pure]
  rw [if_pos ⟨hgd, by omega, by omega⟩]

/-- C29: a level that is not below the order is rejected. -/
theorem C29_assertion (N : ℕ) (scheme : String) {P M : ℕ} (hP : M ≤ P) (h : ℝ) :
    integrationMatrix N scheme P h M = .error .assertion := by
  unfold integrationMatrix; rw [if_neg (by omega)]

/-- C29: an unknown scheme is rejected with `ValueError`. -/
theorem C29_unknown {scheme : String} (hs : scheme ∉ buImplemented) (N : ℕ) {P M : ℕ} (hP : P < M) (h : ℝ) :
    integrationMatrix N scheme P h M = .error (.points .valueError) := by
  unfold integrationMatrix; rw [if_pos hP]
  simp [(C32_unknown hs N M).2.1, lift, bind, Except.bind]

/-- C29: the entries computed one by one are the repeated integrals from -1 of the polynomial that is 1 at one collocation
point and 0 at the others. -/
theorem C29_entry {scheme : String} (hs : scheme ∈ buImplemented) {P M : ℕ} (hP : P < M) {N : ℕ}
    (hN : minPoints scheme ≤ N) {n : ℕ} (hn : n < N) :
    ∃ coll constr, buCollPoints N scheme M = .ok coll ∧ buConstructionPoints N scheme M = .ok constr ∧
      ∀ p : ℝ[X], p.degree < N → (∀ j < N, p.eval (arr coll j) = if j = n then 1 else 0) → ∀ i < constr.length,
        lagInteg N n scheme P i M = .ok (iterInt (-1) (M - P) (fun x => p.eval x) (arr constr i)) := by
  obtain ⟨coll, constr, full, s, k1, k2, k3, -, -, -, -, -, -, -, hd, -⟩ := constr_length hs (order := M) (by omega) hN
  refine ⟨coll, constr, k1, k3, fun p hp hv i _ => ?_⟩
  have e : baryPoly N (arr coll) (fun i => if i = n then 1 else 0) = fun x => p.eval x := by
    funext x
    exact baryPoly_poly hd (by omega) hp (fun j hj => (hv j hj).symm) x
  have hdeg : p.natDegree ≤ N - 1 := by
    rcases eq_or_ne p 0 with rfl | h0
    · simp
    · have := (natDegree_lt_iff_degree_lt h0).2 hp; omega
  simp only [lagInteg, buUnitLagPol, k1, k3, e, bind, Except.bind, pure, Except.pure]
  rw [C26_repeated (by omega) hdeg]

/-- C29: the extreme matrix evaluates at the ends the polynomial through the values at the collocation points. -/
theorem C29_extreme {scheme : String} (hs : scheme ∈ buImplemented) {M : ℕ} (hM : 1 ≤ M) {N : ℕ}
    (hN : minPoints scheme ≤ N) :
    ∃ coll r r', buCollPoints N scheme M = .ok coll ∧ extremeMatrix N scheme "start" M = .ok r ∧
      extremeMatrix N scheme "end" M = .ok r' ∧
      ∀ p : ℝ[X], p.degree < N → ∑ c ∈ range N, r c * p.eval (arr coll c) = p.eval (-1) ∧
        ∑ c ∈ range N, r' c * p.eval (arr coll c) = p.eval 1 := by
  obtain ⟨coll, constr, full, s, k1, k2, k3, -, -, -, -, -, -, -, hd, -⟩ := constr_length hs hM hN
  refine ⟨coll, fun ii => baryPoly N (arr coll) (fun i => if i = ii then 1 else 0) (-1),
    fun ii => baryPoly N (arr coll) (fun i => if i = ii then 1 else 0) 1, k1, ?_, ?_, fun p hp => ?_⟩
  · simp [extremeMatrix, k1, bind, Except.bind, pure, Except.pure]
  · simp [extremeMatrix, k1, bind, Except.bind, pure, Except.pure]
  · have e : ∀ x, ∑ c ∈ range N, baryPoly N (arr coll) (fun i => if i = c then 1 else 0) x * p.eval (arr coll c)
        = p.eval x := by
      intro x
      conv_rhs => rw [← interpolate_self hd hp (y := fun i => p.eval (arr coll i)) (fun _ _ => rfl), interp_eval]
      apply sum_congr rfl
      intro c hc
      have := eye_interpolate hd (mem_range.1 hc) x
      unfold baryPoly2d eye at this
      rw [this]
    exact ⟨e _, e _⟩

/-- C29: a point other than start and end is rejected. -/
theorem C29_extreme_error {scheme : String} (hs : scheme ∈ buImplemented) {M : ℕ} (hM : 1 ≤ M) {N : ℕ}
    (hN : minPoints scheme ≤ N) {point : String} (h1 : point ≠ "start") (h2 : point ≠ "end") :
    extremeMatrix N scheme point M = .error .valueError := by
  obtain ⟨coll, constr, full, s, k1, -⟩ := constr_length hs hM hN
  simp [extremeMatrix, k1, h1, h2, bind, Except.bind]

/-! ## C30 and C31 -/

/-- The arrays `q`, `v`, ... of a problem are samples of polynomials (one for each coordinate) and their derivatives. -/
def IsTrajectory (v : Vars) (order n_q deg : ℕ) (taus : List ℝ) (t0 t1 : ℝ) : Prop :=
  ∃ Q : ℕ → ℝ[X], ∀ j < n_q, (Q j).degree < deg ∧ ∀ k ≤ order, ∀ i < taus.length,
    v.lev order n_q k i j = (derivative^[k] (Q j)).eval (tauToT (arr taus i) t0 t1)

/-- The dynamics hold at every collocation point with the control and the multipliers of that point. -/
def Collocated (F : Dyn) (v : Vars) (taus coll : List ℝ) : Prop :=
  ∀ m < coll.length, ∃ i < taus.length, arr taus i = arr coll m ∧ zero (F (v.x i) (v.xd i) (v.u m) (v.lam m))

/-- The rows of the constraints of the dynamics, as numbers. -/
theorem rows_spec {full coll : List ℝ} {s : Slice} (hs : pySlice s.1 s.2 full = coll) {m : ℕ} (hm : m < coll.length) :
    (dynRows full.length s).getD m 0 < full.length ∧ arr full ((dynRows full.length s).getD m 0) = arr coll m := by
  have h := dynRows_get s full
  rw [hs] at h
  have hlen : (dynRows full.length s).length = coll.length := by simpa using congrArg List.length h
  have := congrArg (fun l => l[m]?) h
  simp only [List.getElem?_map] at this
  rw [List.getElem?_eq_getElem (by omega), List.getElem?_eq_getElem hm] at this
  simp only [Option.map_some, Option.some.injEq] at this
  rw [List.getD_eq_getElem?_getD, List.getElem?_eq_getElem (by omega), Option.getD_some]
  obtain ⟨h1, h2⟩ := List.getElem?_eq_some_iff.1 this
  refine ⟨h1, ?_⟩
  simp [arr, List.getD_eq_getElem?_getD, List.getElem?_eq_getElem h1, List.getElem?_eq_getElem hm, h2]

theorem rows_length {full coll : List ℝ} {s : Slice} (hs : pySlice s.1 s.2 full = coll) :
    (dynRows full.length s).length = coll.length := by
  have h := dynRows_get s full
  rw [hs] at h
  simpa using congrArg List.length h

theorem dyn_iff {full coll : List ℝ} {s : Slice} (hf : full.Pairwise (· < ·)) (hs : pySlice s.1 s.2 full = coll) (F : Dyn)
    (v : Vars) : dynConstraints F (dynRows full.length s) v ↔ Collocated F v full coll := by
  unfold dynConstraints Collocated
  rw [rows_length hs]
  refine forall_congr' fun m => forall_congr' fun hm => ?_
  obtain ⟨h1, h2⟩ := rows_spec hs hm
  constructor
  · intro h; exact ⟨_, h1, h2, h⟩
  · rintro ⟨i, hi, e, hz⟩
    have := distinct_arr hf _ hi _ h1 (e.trans h2.symm)
    rwa [← this]

theorem dynRows_mem {n i : ℕ} {s : Slice} {a b : ℕ} (ha : (s.1.map (pyBound n)).getD 0 = a)
    (hb : (s.2.map (pyBound n)).getD n = b) (h1 : a ≤ i) (h2 : i < b) (h3 : i < n) :
    ∃ m < (dynRows n s).length, (dynRows n s).getD m 0 = i := by
  have e : dynRows n s = ((List.range n).take b).drop a := by
    simp [dynRows, pySlice, ha, hb]
  refine ⟨i - a, ?_, ?_⟩
  · rw [e]; simp; omega
  · rw [e, List.getD_eq_getElem?_getD, List.getElem?_drop, List.getElem?_take, if_pos (by omega),
      show a + (i - a) = i by omega]
    simp [h3]

/-- Every row is one of a collocation point, or the first or the last row of a scheme without collocation there. -/
theorem rows_cover {scheme : String} {s : Slice} (hs : scheme ∈ buImplemented) (hc : collIndices scheme = .ok s) {n i : ℕ}
    (hi : i < n) : (∃ m < (dynRows n s).length, (dynRows n s).getD m 0 = i) ∨
      (i = 0 ∧ scheme ∈ gaussLike ++ radauInv) ∨ (i = n - 1 ∧ scheme ∈ gaussLike ++ radauLike) := by
  have hall : s = (none, none) ∨ (s = (none, some (-1)) ∧ scheme ∈ gaussLike ++ radauLike) ∨
      (s = (some 1, none) ∧ scheme ∈ gaussLike ++ radauInv) ∨
      (s = (some 1, some (-1)) ∧ scheme ∈ gaussLike ++ radauInv ∧ scheme ∈ gaussLike ++ radauLike) := by
    rw [buImplemented_eq] at hs
    simp only [List.mem_cons, List.not_mem_nil, or_false] at hs
    rcases hs with rfl | rfl | rfl | rfl | rfl | rfl | rfl | rfl | rfl | rfl | rfl | rfl <;>
      simp [collIndices, gaussLike, gaussInv_eq, gauss2_eq, radauLike, radauInv_eq, lobatoLike] at hc <;> subst hc <;>
      simp [gaussLike, radauLike, radauInv_eq]
  have e1 : pyBound n (-1) = n - 1 := by simp [pyBound]; omega
  have e2 : pyBound n 1 = 1 := by simp [pyBound]; omega
  by_cases h0 : i = 0
  · rcases hall with rfl | ⟨rfl, h⟩ | ⟨rfl, h⟩ | ⟨rfl, h, -⟩
    · exact Or.inl (dynRows_mem rfl rfl (by simp) (by simpa using hi) hi)
    · by_cases h1 : i = n - 1
      · exact Or.inr (Or.inr ⟨h1, h⟩)
      · exact Or.inl (dynRows_mem rfl rfl (by simp) (by simp [e1]; omega) hi)
    · exact Or.inr (Or.inl ⟨h0, h⟩)
    · exact Or.inr (Or.inl ⟨h0, h⟩)
  · by_cases h1 : i = n - 1
    · rcases hall with rfl | ⟨rfl, h⟩ | ⟨rfl, h⟩ | ⟨rfl, -, h⟩
      · exact Or.inl (dynRows_mem rfl rfl (by simp) (by simpa using hi) hi)
      · exact Or.inr (Or.inr ⟨h1, h⟩)
      · exact Or.inl (dynRows_mem rfl rfl (by simp [e2]; omega) (by simpa using hi) hi)
      · exact Or.inr (Or.inr ⟨h1, h⟩)
    · rcases hall with rfl | ⟨rfl, h⟩ | ⟨rfl, h⟩ | ⟨rfl, -, h⟩
      · exact Or.inl (dynRows_mem rfl rfl (by simp) (by simpa using hi) hi)
      · exact Or.inl (dynRows_mem rfl rfl (by simp) (by simp [e1]; omega) hi)
      · exact Or.inl (dynRows_mem rfl rfl (by simp [e2]; omega) (by simpa using hi) hi)
      · exact Or.inl (dynRows_mem rfl rfl (by simp [e2]; omega) (by simp [e1]; omega) hi)

theorem bu_ok {scheme : String} (hs : scheme ∈ buImplemented) {order : ℕ} (ho : 1 ≤ order) {N : ℕ}
    (hN : minPoints scheme ≤ N) (h1 : 2 ≤ N ∨ scheme ∉ gaussLike) (F : Dyn) (n_q : ℕ) (t0 t1 : ℝ) {full : List ℝ}
    {s : Slice} {r r' : ℕ → ℝ} {mats : ℕ → ℕ → ℕ → ℝ}
    (hf : buArrPoints N scheme order = .ok full) (hc : collIndices scheme = .ok s)
    (hr : extremeMatrix N scheme "start" order = .ok r) (hr' : extremeMatrix N scheme "end" order = .ok r')
    (hm : ∀ ii < order, integrationMatrix N scheme ii (t1 - t0) order = .ok (mats ii)) :
    ∃ C, buConstraints F scheme N order n_q t0 t1 = .ok C ∧ ∀ v, C v ↔
      (scheme ∈ gaussLike ++ radauInv → ∀ j < n_q, v.lev order n_q order 0 j
        = ∑ c ∈ range N, r c * v.lev order n_q order ((dynRows full.length s).getD c 0) j) ∧
      (scheme ∈ gaussLike ++ radauLike → ∀ j < n_q, v.lev order n_q order (full.length - 1) j
        = ∑ c ∈ range N, r' c * v.lev order n_q order ((dynRows full.length s).getD c 0) j) ∧
      (∀ ii < order, ∀ i < full.length - 1, ∀ j < n_q, v.lev order n_q ii (i + 1) j
        = ∑ c ∈ range (order + N), mats ii i c * (if c < order then v.lev order n_q c 0 j
            else v.lev order n_q order ((dynRows full.length s).getD (c - order) 0) j)) ∧
      dynConstraints F (dynRows full.length s) v := by
  have hmm : (List.range order).mapM (fun ii => integrationMatrix N scheme ii (t1 - t0) order)
      = .ok ((List.range order).map mats) := mapM_ok _ _ _ (fun a ha => hm a (List.mem_range.1 ha))
  have hget : ∀ ii < order, ((List.range order).map mats).getD ii (fun _ _ => 0) = mats ii := by
    intro ii h; simp [List.getD_eq_getElem?_getD, h]
  have key : ∀ v : Vars, (∀ ii < order, ∀ i < full.length - 1, ∀ j < n_q, v.lev order n_q ii (i + 1) j
        = ∑ c ∈ range (order + N), ((List.range order).map mats).getD ii (fun _ _ => 0) i c
          * polynomialData order n_q (dynRows full.length s) v j c) ↔
      (∀ ii < order, ∀ i < full.length - 1, ∀ j < n_q, v.lev order n_q ii (i + 1) j
        = ∑ c ∈ range (order + N), mats ii i c * (if c < order then v.lev order n_q c 0 j
            else v.lev order n_q order ((dynRows full.length s).getD (c - order) 0) j)) := by
    intro v
    refine forall_congr' fun ii => forall_congr' fun hii => ?_
    rw [hget ii hii]
    rfl
  by_cases c1 : scheme ∈ gaussLike ++ radauInv <;> by_cases c2 : scheme ∈ gaussLike ++ radauLike
  all_goals
    simp only [buConstraints, hf, hc, hr, hr', hmm, c1, c2, lift, bind, Except.bind, pure, Except.pure, if_true, if_false]
    refine ⟨_, rfl, fun v => ?_⟩
    simp only [key, true_imp_iff, false_imp_iff]

theorem tauToT_start (t0 t1 : ℝ) : tauToT (-1) t0 t1 = t0 := by simp [tauToT]

/-- C30: an assignment of the variables of a bottom-up problem is feasible exactly if the arrays `q`, `v`, ... are samples
of polynomials of degree below `order + n_coll` and of their derivatives at all rows, and the dynamics hold at every
collocation point. -/
theorem C30_feasible {scheme : String} (hs : scheme ∈ buImplemented) {order : ℕ} (ho : 1 ≤ order) {N : ℕ}
    (hN : minPoints scheme ≤ N) (h1 : 2 ≤ N ∨ scheme ∉ gaussLike) (F : Dyn) (n_q : ℕ) {t0 t1 : ℝ} (ht : t0 ≠ t1) :
    ∃ coll full C, buCollPoints N scheme order = .ok coll ∧ buArrPoints N scheme order = .ok full ∧
      buConstraints F scheme N order n_q t0 t1 = .ok C ∧
      ∀ v, C v ↔ IsTrajectory v order n_q (order + N) full t0 t1 ∧ Collocated F v full coll := by
  obtain ⟨coll, constr, full, s, k1, k2, k3, k4, hfull, k5, k6, hsort, hlast, hlen, hd, hsl, -, hl⟩ :=
    constr_length hs ho hN
  obtain ⟨coll', r, r', k1', hr, hr', hrr⟩ := C29_extreme hs ho hN
  rw [k1] at k1'
  cases k1'
  have hmats : ∀ ii, ∃ mat, ii < order → integrationMatrix N scheme ii (t1 - t0) order = .ok mat ∧
      (∀ i, ∀ c < ii, mat i c = 0) ∧
      (∀ i, ∀ k < order - ii, mat i (ii + k) = ((1 + arr constr i) * (t1 - t0) / 2) ^ k / (Nat.factorial k : ℝ)) ∧
      ∀ i, ∀ c < N, mat i (order + c) = ((t1 - t0) / 2) ^ (order - ii)
        * (antiK (-1) (order - ii) (Lagrange.basis (range N) (arr coll) c)).eval (arr constr i) := by
    intro ii
    by_cases hii : ii < order
    · obtain ⟨mat, hmat⟩ := integrationMatrix_ok hs hii hN h1 (t1 - t0) k2 hd k3 hl
      exact ⟨mat, fun _ => hmat⟩
    · exact ⟨fun _ _ => 0, fun h => absurd h hii⟩
  choose mats hmats using hmats
  obtain ⟨C, hC, hCv⟩ := bu_ok hs ho hN h1 F n_q t0 t1 k4 k6 hr hr' (fun ii h => (hmats ii h).1)
  refine ⟨coll, full, C, k1, k4, hC, fun v => ?_⟩
  rw [hCv, dyn_iff hsort hsl]
  have hflen : full.length = constr.length + 1 := by rw [hfull]; rfl
  have hf0 : arr full 0 = -1 := by rw [hfull]; rfl
  have hfs : ∀ i, arr full (i + 1) = arr constr i := by intro i; rw [hfull]; rfl
  have hfl : arr full (full.length - 1) = 1 := by
    rw [List.getLast?_eq_getElem?] at hlast
    simp [arr, List.getD_eq_getElem?_getD, hlast]
  obtain ⟨rows, hrows⟩ : ∃ rows, rows = dynRows full.length s := ⟨_, rfl⟩
  have hrl := rows_length hsl
  have hrs : ∀ m < N, rows.getD m 0 < full.length ∧ arr full (rows.getD m 0) = arr coll m := by
    intro m hm; rw [hrows]; exact rows_spec hsl (by omega)
  rw [← hrows] at hrl ⊢
  -- the data of coordinate `j` and its polynomial
  obtain ⟨x0, hx0⟩ : ∃ x0 : ℕ → ℕ → ℝ, x0 = fun j c => v.lev order n_q c 0 j := ⟨_, rfl⟩
  obtain ⟨a, ha⟩ : ∃ a : ℕ → ℕ → ℝ, a = fun j m => v.lev order n_q order (rows.getD m 0) j := ⟨_, rfl⟩
  have hrow : ∀ ii < order, ∀ i j, ∑ c ∈ range (order + N), mats ii i c * (if c < order then v.lev order n_q c 0 j
      else v.lev order n_q order (rows.getD (c - order) 0) j)
      = (derivative^[ii] (traj t0 (t1 - t0) order (x0 j) (Lagrange.interpolate (range N) (arr coll) (a j)))).eval
        (tauToT (arr constr i) t0 t1) := by
    intro ii hii i j
    obtain ⟨-, m1, m2, m3⟩ := hmats ii hii
    have := row_eq ht hii (arr constr i) (x0 j) (a j) (m1 i) (m2 i) (m3 i)
    rw [← this, hx0, ha]
  have hext : ∀ j, ∑ c ∈ range N, r c * v.lev order n_q order (rows.getD c 0) j
        = (Lagrange.interpolate (range N) (arr coll) (a j)).eval (-1) ∧
      ∑ c ∈ range N, r' c * v.lev order n_q order (rows.getD c 0) j
        = (Lagrange.interpolate (range N) (arr coll) (a j)).eval 1 := by
    intro j
    obtain ⟨e1, e2⟩ := hrr (Lagrange.interpolate (range N) (arr coll) (a j))
      (by simpa using Lagrange.degree_interpolate_lt (a j) hd.injOn)
    rw [← e1, ← e2]
    constructor <;> apply sum_congr rfl <;> intro c hc <;>
      rw [Lagrange.eval_interpolate_at_node _ hd.injOn hc, ha]
  constructor
  · rintro ⟨c1, c2, c3, c4⟩
    refine ⟨⟨fun j => traj t0 (t1 - t0) order (x0 j) (Lagrange.interpolate (range N) (arr coll) (a j)),
      fun j hj => ?_⟩, c4⟩
    obtain ⟨s1, s2, s3⟩ := traj_spec ht hd (M := order) (x0 j) (a j)
    refine ⟨s1, fun k hk i hi => ?_⟩
    rcases Nat.lt_or_ge k order with hk' | hk'
    · rcases Nat.eq_zero_or_pos i with rfl | hi0
      · rw [hf0, tauToT_start, s2 k hk', hx0]
      · obtain ⟨i, rfl⟩ : ∃ m, i = m + 1 := ⟨i - 1, by omega⟩
        rw [hfs, c3 k hk' i (by omega) j hj, hrow k hk']
    · obtain rfl : k = order := by omega
      rw [s3]
      rcases rows_cover hs k6 hi with ⟨m, hm, hmi⟩ | ⟨rfl, hmem⟩ | ⟨rfl, hmem⟩
      · rw [← hrows] at hm hmi
        have hmN : m < N := by omega
        rw [← hmi, (hrs m hmN).2, Lagrange.eval_interpolate_at_node _ hd.injOn (mem_range.2 hmN), ha]
      · rw [hf0, c1 hmem j hj, (hext j).1]
      · rw [hfl, c2 hmem j hj, (hext j).2]
  · rintro ⟨⟨Q, hQ⟩, c4⟩
    have hQt : ∀ j < n_q, Q j = traj t0 (t1 - t0) order (x0 j) (Lagrange.interpolate (range N) (arr coll) (a j)) := by
      intro j hj
      obtain ⟨q1, q2⟩ := hQ j hj
      apply traj_unique ht hd q1
      · intro k hk
        have := q2 k hk.le 0 (by omega)
        rw [hf0, tauToT_start] at this
        rw [← this, hx0]
      · intro c hc
        have := q2 order le_rfl _ (hrs c hc).1
        rw [(hrs c hc).2] at this
        rw [← this, ha]
    refine ⟨fun _ j hj => ?_, fun _ j hj => ?_, fun ii hii i hi j hj => ?_, c4⟩
    · rw [(hext j).1, ← (traj_spec ht hd (M := order) (x0 j) (a j)).2.2, ← hQt j hj, (hQ j hj).2 order le_rfl 0 (by omega),
        hf0]
    · rw [(hext j).2, ← (traj_spec ht hd (M := order) (x0 j) (a j)).2.2, ← hQt j hj,
        (hQ j hj).2 order le_rfl _ (by omega : full.length - 1 < full.length), hfl]
    · rw [hrow ii hii, ← hQt j hj, (hQ j hj).2 ii hii.le (i + 1) (by omega), hfs]

/-- Two collocation points of LG and a problem of order 2. -/
example : "LG" ∈ buImplemented ∧ minPoints "LG" ≤ 2 ∧ (2 ≤ 2 ∨ "LG" ∉ gaussLike) ∧ (0 : ℝ) ≠ 1 :=
  ⟨by decide, by decide, Or.inl le_rfl, by norm_num⟩

/-- C30: with one Gauss point the constraints cannot be built. -/
theorem C30_one_gauss {scheme : String} (hs : scheme ∈ gaussLike) {order : ℕ} (ho : 1 ≤ order) (F : Dyn) (n_q : ℕ)
    (t0 t1 : ℝ) : buConstraints F scheme 1 order n_q t0 t1 = .error .broadcast := by
  have hbu : scheme ∈ buImplemented := by simp [buImplemented, hs]
  have hN : minPoints scheme ≤ 1 := by
    simp only [gaussLike, List.mem_cons, List.not_mem_nil, or_false] at hs
    rcases hs with rfl | rfl | rfl <;> decide
  obtain ⟨coll, constr, full, s, k1, k2, k3, k4, hfull, k5, k6, -⟩ := constr_length hbu ho hN
  obtain ⟨coll', r, r', k1', hr, hr', hrr⟩ := C29_extreme hbu ho hN
  have hmm : (List.range order).mapM (fun ii => integrationMatrix 1 scheme ii (t1 - t0) order) = .error .broadcast := by
    obtain ⟨m, rfl⟩ : ∃ m, order = m + 1 := ⟨order - 1, by omega⟩
    rw [List.range_succ_eq_map, List.mapM_cons, C29_one_gauss hs (by omega)]
    rfl
  have c1 : scheme ∈ gaussLike ++ radauInv := List.mem_append_left _ hs
  have c2 : scheme ∈ gaussLike ++ radauLike := List.mem_append_left _ hs
  simp only [buConstraints, k4, k6, hr, hr', hmm, c1, c2, lift, bind, Except.bind, pure, Except.pure, if_true]

theorem lgl_points {n : ℕ} (hn : 2 ≤ n) : ∃ nu, collPoints n "LGL" = .ok nu ∧ nodePoints n "LGL" = .ok nu ∧
    nu.length = n ∧ Distinct n (arr nu) := by
  obtain ⟨nu, h1, h2, h3⟩ := coll_distinct (scheme := "LGL") (by decide) (order := 2) (by norm_num) (N := n)
    (by simpa [minPoints] using hn)
  exact ⟨nu, h1, by simpa [nodePoints, gaussLike, gaussInv_eq, radauLike, radauInv_eq, lobatoLike] using h1, h2, h3⟩

/-- One row of a derivative matrix times the construction values of a polynomial. -/
theorem td_row {size : ℕ} {nu full : List ℝ} (n4 : Distinct size (arr nu)) {t0 t1 : ℝ} (ht : t0 ≠ t1) : ∀ (Q : ℝ[X]), Q.degree < (size : ℕ) →
    ∀ y : ℕ → ℝ, (∀ c < size, Q.eval (tauToT (arr nu c) t0 t1) = y c) → ∀ k i,
      ∑ c ∈ range size, (∑ l ∈ range size, ((2 / (t1 - t0)) ^ k
        * baryPoly2d size (arr nu) eye (arr full i) l) * matPow size
          (dMat size (arr nu) (vSum size (arr nu))) k l c) * y c
        = (derivative^[k] Q).eval (tauToT (arr full i) t0 t1) := by
  intro Q hQ y hy k i
  obtain ⟨p, hp⟩ : ∃ p, p = Q.comp (toT t0 t1) := ⟨_, rfl⟩
  have hpd : p.degree < (size : ℕ) := hp ▸ comp_toT_degree t0 t1 hQ
  have hpy : ∀ c < size, y c = p.eval (arr nu c) := by
    intro c hc; rw [hp, eval_comp, toT_eval, hy c hc]
  have e1 : ∑ c ∈ range size, (∑ l ∈ range size, ((2 / (t1 - t0)) ^ k
      * baryPoly2d size (arr nu) eye (arr full i) l) * matPow size
        (dMat size (arr nu) (vSum size (arr nu))) k l c) * y c
      = (2 / (t1 - t0)) ^ k * ∑ l ∈ range size, (Lagrange.basis (range size) (arr nu) l).eval (arr full i)
        * matVec size (matPow size (dMat size (arr nu) (vSum size (arr nu))) k) y l := by
    simp only [sum_mul, matVec, mul_sum]
    rw [sum_comm]
    apply sum_congr rfl
    intro l hl
    apply sum_congr rfl
    intro c _
    rw [eye_interpolate n4 (mem_range.1 hl)]
    ring
  have e2 : ∑ l ∈ range size, (Lagrange.basis (range size) (arr nu) l).eval (arr full i)
        * matVec size (matPow size (dMat size (arr nu) (vSum size (arr nu))) k) y l
      = (derivative^[k] p).eval (arr full i) := by
    conv_rhs => rw [← interpolate_self n4 (iter_degree_lt k hpd)
      (y := fun l => matVec size (matPow size (dMat size (arr nu) (vSum size (arr nu))) k) y l)
      (fun l hl => dMat_pow n4 hpd hpy k hl), interp_eval]
  rw [e1, e2]
  conv_rhs => rw [eq_comp_toTau ht Q, ← hp, iter_comp, eval_mul, eval_C, eval_comp, toTau_eval ht]

/-- C31: an assignment of the variables of a top-down problem can be completed with values of the construction variables
to a feasible one exactly if the arrays `q`, `v`, ... are samples of polynomials of degree below `order + n_coll` and of
their derivatives at all rows, and the dynamics hold at every collocation point. In every feasible point the construction
variables are the values of that polynomial at the LGL points. -/
theorem C31_feasible {scheme : String} (hs : scheme ∈ buImplemented) {order : ℕ} (ho : 1 ≤ order) {N : ℕ}
    (hN : minPoints scheme ≤ N) (F : Dyn) (n_q : ℕ) {t0 t1 : ℝ} (ht : t0 ≠ t1) :
    ∃ coll full nu C, buCollPoints N scheme order = .ok coll ∧ tdConstructionPoints N scheme order = .ok full ∧
      collPoints (N + order) "LGL" = .ok nu ∧ tdConstraints F scheme N order n_q t0 t1 = .ok C ∧
      (∀ v, (∃ q, C v q) ↔ IsTrajectory v order n_q (order + N) full t0 t1 ∧ Collocated F v full coll) ∧
      ∀ v q, C v q → ∀ Q : ℕ → ℝ[X], (∀ j < n_q, (Q j).degree < (order + N : ℕ)) →
        (∀ j < n_q, ∀ c < order + N, (Q j).eval (tauToT (arr nu c) t0 t1) = q c j) →
        ∀ j < n_q, ∀ k ≤ order, ∀ i < full.length,
          v.lev order n_q k i j = (derivative^[k] (Q j)).eval (tauToT (arr full i) t0 t1) := by
  obtain ⟨coll, constr, full, s, k1, k2, k3, k4, hfull, k5, k6, hsort, hlast, hlen, hd, hsl, -, hl⟩ :=
    constr_length hs ho hN
  have hN1 : 1 ≤ N := le_trans (minPoints_pos scheme) hN
  obtain ⟨nu, n1, n2, n3, n4⟩ := lgl_points (n := order + N) (by omega)
  have hD : matrixDNu (order + N) = .ok (dMat (order + N) (arr nu) (vSum (order + N) (arr nu))) := by
    simp [matrixDNu, matrixDBary, n2, n3, bind, Except.bind, pure, Except.pure]
  have hLm : matrixL N scheme order = .ok fun i c => baryPoly2d (order + N) (arr nu) eye (arr full i) c := by
    simp [matrixL, k5, lagPol2d, add_comm N order, n1, bind, Except.bind, pure, Except.pure]
  -- one row of a derivative matrix times the construction values of a polynomial
  have hrow : ∀ (Q : ℝ[X]), Q.degree < (order + N : ℕ) → ∀ y : ℕ → ℝ,
      (∀ c < order + N, Q.eval (tauToT (arr nu c) t0 t1) = y c) → ∀ k i,
      ∑ c ∈ range (order + N), (∑ l ∈ range (order + N), ((2 / (t1 - t0)) ^ k
        * baryPoly2d (order + N) (arr nu) eye (arr full i) l) * matPow (order + N)
          (dMat (order + N) (arr nu) (vSum (order + N) (arr nu))) k l c) * y c
        = (derivative^[k] Q).eval (tauToT (arr full i) t0 t1) :=
    td_row n4 ht
  have hC : ∃ C, tdConstraints F scheme N order n_q t0 t1 = .ok C ∧ ∀ v q, C v q ↔
      (∀ ii < order + 1, ∀ i < full.length, ∀ j < n_q,
        v.lev order n_q ii i j = ∑ c ∈ range (order + N), (∑ l ∈ range (order + N), ((2 / (t1 - t0)) ^ ii
        * baryPoly2d (order + N) (arr nu) eye (arr full i) l) * matPow (order + N)
          (dMat (order + N) (arr nu) (vSum (order + N) (arr nu))) ii l c) * q c j) ∧ Collocated F v full coll := by
    simp only [tdConstraints, k5, k6, hD, hLm, bind, Except.bind, pure, Except.pure]
    refine ⟨_, rfl, fun v q => ?_⟩
    rw [← dyn_iff hsort hsl]
  obtain ⟨C, hC, hCv⟩ := hC
  have hQex : ∀ y : ℕ → ℝ, ∃ Q : ℝ[X], Q.degree < (order + N : ℕ) ∧
      ∀ c < order + N, Q.eval (tauToT (arr nu c) t0 t1) = y c := by
    intro y
    refine ⟨(Lagrange.interpolate (range (order + N)) (arr nu) y).comp (toTau t0 (t1 - t0)), ?_, fun c hc => ?_⟩
    · exact comp_toTau_degree _ _ (by simpa using Lagrange.degree_interpolate_lt y n4.injOn)
    · rw [eval_comp, toTau_eval ht, Lagrange.eval_interpolate_at_node _ n4.injOn (mem_range.2 hc)]
  refine ⟨coll, full, nu, C, k1, k5, by rw [add_comm]; exact n1, hC, fun v => ⟨?_, ?_⟩, ?_⟩
  · rintro ⟨q, hq⟩
    rw [hCv] at hq
    choose Q hQ using hQex
    refine ⟨⟨fun j => Q (fun c => q c j), fun j hj => ⟨(hQ _).1, fun k hk i hi => ?_⟩⟩, hq.2⟩
    rw [hq.1 k (by omega) i hi j hj, hrow _ (hQ fun c => q c j).1 _ (hQ fun c => q c j).2]
  · rintro ⟨⟨Q, hQ⟩, hdyn⟩
    refine ⟨fun c j => (Q j).eval (tauToT (arr nu c) t0 t1), (hCv _ _).2 ⟨fun k hk i hi j hj => ?_, hdyn⟩⟩
    rw [hrow (Q j) (hQ j hj).1 _ (fun _ _ => rfl), (hQ j hj).2 k (by omega) i hi]
  · intro v q hq Q hQ1 hQ2 j hj k hk i hi
    rw [((hCv v q).1 hq).1 k (by omega) i hi j hj, hrow (Q j) (hQ1 j hj) _ (hQ2 j hj)]

/-- C31: bottom-up and top-down problems with the same scheme have the same feasible trajectories. -/
theorem C31_same {scheme : String} (hs : scheme ∈ buImplemented) {order : ℕ} (ho : 1 ≤ order) {N : ℕ}
    (hN : minPoints scheme ≤ N) (h1 : 2 ≤ N ∨ scheme ∉ gaussLike) (F : Dyn) (n_q : ℕ) {t0 t1 : ℝ} (ht : t0 ≠ t1) :
    ∃ C C', buConstraints F scheme N order n_q t0 t1 = .ok C ∧ tdConstraints F scheme N order n_q t0 t1 = .ok C' ∧
      ∀ v, C v ↔ ∃ q, C' v q := by
  obtain ⟨coll, full, C, a1, a2, a3, a4⟩ := C30_feasible hs ho hN h1 F n_q ht
  obtain ⟨coll', full', nu, C', b1, b2, b3, b4, b5, -⟩ := C31_feasible hs ho hN F n_q ht
  obtain ⟨c, f, s, d1, d2, d3, -⟩ := C32_rows hs ho hN
  rw [a1] at b1 d1
  rw [a2] at d2
  rw [b2] at d3
  cases b1; cases d2; cases d3
  exact ⟨C, C', a3, b4, fun v => (a4 v).trans (b5 v).symm⟩

/-- C31: unlike the bottom-up ones, top-down problems can be built with one Gauss point. -/
example : "LG" ∈ buImplemented ∧ minPoints "LG" ≤ 1 := by decide

end Chords.Props
