import Verif.Lemmas.Interpolation
import Verif.Props.PsInterp
import Verif.Props.BuTdInterp
import Verif.Props.NodePs

/-! # C113-C115: the dictionary of `interpolation` for pseudospectral results -/

namespace Chords.Props
open Polynomial Chords.Points Chords.Spec Chords.Bary Chords.TimeScale Chords.PsInterp Chords.BuTdInterp Chords.DynErr
  Chords.Interpolation Chords.Problem
open Chords.Ph (linspace)

/-- The argument for an optional array of instants. -/
def asGiven : Option (List ℝ) → Given
  | none => .absent
  | some l => .times l

theorem instantsOf_eq (t0 t1 : ℝ) (n : ℕ) (given : Option (List ℝ)) : instantsOf t0 t1 n given = instants t0 t1 n given := by
  cases given <;> rfl

theorem samples_holds {Q : ℕ → ℝ[X]} {order n_s d w : ℕ} {ts : List ℝ} {a : Arr2} (h : SamplesAt Q order n_s d ts a)
    (hw : w = n_s * order) :
    Holds ts.length w (fun i c => (derivative^[c / n_s + d] (Q (c % n_s))).eval (arr ts i)) a := by
  subst hw
  refine ⟨h.1, h.2.1, fun i hi c hc => ?_⟩
  have hs : 0 < n_s := by
    rcases Nat.eq_zero_or_pos n_s with h0 | h0
    · subst h0; omega
    · exact h0
  have h1 : c / n_s < order := Nat.div_lt_of_lt_mul hc
  have h2 : c % n_s < n_s := Nat.mod_lt _ hs
  have h3 := h.2.2 i hi _ h1 _ h2
  rwa [Nat.div_add_mod] at h3

/-- The end of `interpolation` for a result without segments. -/
theorem interpolation_flat {elib : (d : ℕ) → Interp.Lib d Row} {lib : PsInterp.Lib} {res : Res} {p m n : ℕ}
    {x_interp u_interp : Option String} {given : Option (List ℝ)} {d : Arrays} (save : Bool)
    (hm : res.scheme_mode.toList.take 3 ≠ ['p', 'h', ' '])
    (h : flat elib lib res p m x_interp u_interp n given = .ok d) :
    interpolation elib lib res p m x_interp u_interp n save (asGiven given)
      = .ok ({ arrs := d }, if save then { res with interpolations := some { arrs := d } } else res) := by
  cases given <;>
    simp only [interpolation, hm, if_false, asGiven, h, bind, Except.bind, pure, Except.pure]

/-- The steps of a pseudospectral branch, from the interpolations of the states to the whole dictionary. -/
theorem ps_dict {p L n_q : ℕ} (hp : 1 ≤ p) {g : ℕ → ℕ → ℕ → ℝ} {x x_dot u t : Arr2} {deriv : ℕ → Except PsErr Arr2}
    (hx : Holds L (p * n_q) (g 0) x) (hxd : Holds L (p * n_q) (g 1) x_dot)
    (hd : ∀ ii, ∃ a, deriv ii = .ok a ∧ Holds L (p * n_q) (g ii) a) :
    ∃ d0 d, psDerivs deriv [("x", x), ("x_d", x_dot), ("u", u), ("t", t)] (p - 1) = .ok d0 ∧ nameArrays p d0 = .ok d ∧
      Distributed p L n_q g d ∧ d.get "u" = some u ∧ d.get "t" = some t := by
  obtain ⟨d0, e1, e2, e3⟩ := psDerivs_ok (Q := fun ii a => Holds L (p * n_q) (g ii) a) hd
    [("x", x), ("x_d", x_dot), ("u", u), ("t", t)] (p - 1)
  have hne : ∀ key i, (∀ c ∈ key.toList, c ≠ '_') → (key ≠ "x" ∨ i < 2) → ∀ ii, 2 ≤ ii → dName key i ≠ dName "x" ii := by
    intro key i hk h ii hii e
    obtain ⟨h1, h2⟩ := dName_inj hk x_plain e
    rcases h with h | h
    · exact h h1
    · omega
  have f0 := e3 "x" (by simpa [dName_zero] using hne "x" 0 x_plain (Or.inr (by omega)))
  have f1 := e3 "x_d" (fun ii hii => hne "x" 1 x_plain (Or.inr (by omega)) ii hii)
  have fu := e3 "u" (by simpa [dName_zero] using hne "u" 0 u_plain (Or.inl (by decide)))
  have ft := e3 "t" (by simpa [dName_zero] using hne "t" 0 t_plain (Or.inl (by decide)))
  simp only [Arrays.get, List.find?_cons, beq_self_eq_true, Option.map_some] at f0
  simp only [Arrays.get, List.find?_cons, show (("x" : String) == "x_d") = false by decide, beq_self_eq_true,
    Option.map_some] at f1
  simp only [Arrays.get, List.find?_cons, show (("x" : String) == "u") = false by decide,
    show (("x_d" : String) == "u") = false by decide, beq_self_eq_true, Option.map_some] at fu
  simp only [Arrays.get, List.find?_cons, show (("x" : String) == "t") = false by decide,
    show (("x_d" : String) == "t") = false by decide, show (("u" : String) == "t") = false by decide, beq_self_eq_true,
    Option.map_some] at ft
  obtain ⟨d, k1, k2, k3, k4⟩ := nameArrays_ok (p := p) (n := L) (n_q := n_q) hp (g := g) (d0 := d0) (by
    intro ii hii
    by_cases h0 : ii = 0
    · subst h0
      exact ⟨x, by rw [dName_zero]; exact f0, hx⟩
    · by_cases h1 : ii = 1
      · subst h1
        exact ⟨x_dot, f1, hxd⟩
      · exact e2 ii (by omega) (by omega))
  exact ⟨d0, d, e1, k1, k2, k3.trans fu, k4.trans ft⟩

theorem ends_of {full : List ℝ} (h0 : full.head? = some (-1)) (h1 : full.getLast? = some 1) (t0 t1 : ℝ) :
    (full.map fun τ => tauToT τ t0 t1).head? = some t0 ∧ (full.map fun τ => tauToT τ t0 t1).getLast? = some t1 := by
  rw [List.head?_map, List.getLast?_map, h0, h1]
  simp only [Option.map_some, Option.some.injEq, tauToT]
  constructor <;> ring

/-! ## C113: bottom-up results -/

/-- C113: for a bottom-up result that samples polynomials, with as many coordinates as the solver used (`n_s`, of order
`order`), `interpolation` returns without an exception; the entry under the name of derivative `jj` of `q` followed by `ii`
times "_d" holds the values of derivative `ii` of block `jj` of the states; "u" and "t" hold the controls and the instants;
the dictionary is stored in the result only on request, and nothing else in the result changes. -/
theorem C113_partial {scheme : String} (hs : scheme ∈ buImplemented) {order m : ℕ} (ho : 1 ≤ order) (hm : 1 ≤ m)
    (hj : m = 2 ∨ scheme ∉ jacobiSchemes) {N : ℕ} (hN : minPoints scheme ≤ N) {n_s : ℕ} (hq : 1 ≤ n_s)
    {t0 t1 : ℝ} (ht : t0 ≠ t1) {pre : String} (hpre : pre = "" ∨ pre = "BU_") (elib : (d : ℕ) → Interp.Lib d Row) (lib : Lib)
    {p n_q : ℕ} (hp : 1 ≤ p) (hpq : p * n_q = n_s * order) (n : ℕ) (given : Option (List ℝ)) (save : Bool) :
    ∃ coll full, buCollPoints N scheme m = .ok coll ∧ buArrPoints N scheme m = .ok full ∧
      ∀ (Q W : ℕ → ℝ[X]) (res : Res), (∀ j < n_s, (Q j).degree < (order + N : ℕ)) →
      res.scheme = pre ++ scheme → res.scheme_mode = "bottom-up pseudospectral" → res.solve_order = order →
      res.t = full.map (fun τ => tauToT τ t0 t1) →
      SamplesAt Q order n_s 0 (full.map fun τ => tauToT τ t0 t1) res.x →
      SamplesAt Q order n_s 1 (full.map fun τ => tauToT τ t0 t1) res.x_d →
      Through W N coll t0 t1 res.u.rows →
      ∃ d, interpolation elib lib res p m none none n save (asGiven given)
          = .ok ({ arrs := d }, if save then { res with interpolations := some { arrs := d } } else res) ∧
        Distributed p (instants t0 t1 n given).length n_q
          (fun ii i c => (derivative^[c / n_s + ii] (Q (c % n_s))).eval (arr (instants t0 t1 n given) i)) d ∧
        d.get "u" = some ⟨res.u.width, (instants t0 t1 n given).map fun t c => (W c).eval t⟩ ∧
        d.get "t" = some (column (instants t0 t1 n given)) := by
  obtain ⟨coll, full, k1, k2, H1⟩ := C109_partial hs ho hm hj hN hq ht hpre lib n given
  refine ⟨coll, full, k1, k2, fun Q W res hQ r1 r2 r3 r4 hx hxd hu => ?_⟩
  obtain ⟨o, o1, o2, o3, o4⟩ := H1 Q W res.x res.x_d res.u.rows hQ hx hxd hu
  have hder : ∀ ii, ∃ a, interpolationsDerivBu lib res.x res.x_d res.scheme res.solve_order ii t0 t1 m "pol" n given = .ok a ∧
      Holds (instants t0 t1 n given).length (p * n_q)
        (fun i c => (derivative^[c / n_s + ii] (Q (c % n_s))).eval (arr (instants t0 t1 n given) i)) a := by
    intro ii
    obtain ⟨full', k2', H2⟩ := C110_partial hs ho hm hj hN hq ht hpre lib n given ii
    rw [k2] at k2'; cases k2'
    obtain ⟨a, a1, a2⟩ := H2 Q res.x res.x_d hQ hx hxd
    rw [r1, r3]
    exact ⟨a, a1, samples_holds a2 hpq⟩
  obtain ⟨d0, d, d1, d2, d3, d4, d5⟩ := ps_dict hp (x := o.x) (x_dot := o.x_dot) (u := ⟨res.u.width, o.u⟩)
    (t := column (instants t0 t1 n given))
    (g := fun ii i c => (derivative^[c / n_s + ii] (Q (c % n_s))).eval (arr (instants t0 t1 n given) i))
    (samples_holds o2 hpq) (samples_holds o3 hpq) hder
  obtain ⟨coll', full', s', c1, c2, -, -, -, c6, c7, -⟩ := C32_rows hs hm hN
  rw [k2] at c2; cases c2
  obtain ⟨f0, f1⟩ := ends_of c6 c7 t0 t1
  refine ⟨d, interpolation_flat save (by rw [r2]; decide) ?_, d3, by rw [d4, o4], d5⟩
  simp only [flat, r4, f0, f1, show p ≠ 0 by omega, if_false, hx.1, ← hpq, Nat.mul_mod_right, not_true, r2,
    show ("bottom-up pseudospectral" : String) ≠ "equispaced" by decide,
    show ("bottom-up pseudospectral" : String) ≠ "pseudospectral" by decide, if_true, bu, Option.getD_none, bind, Except.bind,
    instantsOf_eq]
  rw [r1, r3] at d1 ⊢
  rw [o1]
  dsimp only
  rw [d1]
  exact d2

/-- C113 from what the functions read only, `Feasible`: `H k` are the functions that are sampled for derivative `k` of the
states, in every block up to the order of the problem those of the motion. -/
theorem bu_flat {scheme : String} (hs : scheme ∈ buImplemented) {order m : ℕ} (ho : 1 ≤ order) (hm : 1 ≤ m)
    (hj : m = 2 ∨ scheme ∉ jacobiSchemes) {N : ℕ} (hN : minPoints scheme ≤ N) {n_s : ℕ} (hq : 1 ≤ n_s)
    {t0 t1 : ℝ} (ht : t0 ≠ t1) {pre : String} (hpre : pre = "" ∨ pre = "BU_") (elib : (d : ℕ) → Interp.Lib d Row) (lib : Lib)
    {p n_q : ℕ} (hp : 1 ≤ p) (hpq : p * n_q = n_s * order) :
    ∃ coll full, buCollPoints N scheme m = .ok coll ∧ buArrPoints N scheme m = .ok full ∧
      ∀ (Q W : ℕ → ℝ[X]) (res : Res), (∀ j < n_s, (Q j).degree < (order + N : ℕ)) →
      res.scheme = pre ++ scheme → res.scheme_mode = "bottom-up pseudospectral" → res.solve_order = order →
      res.t = full.map (fun τ => tauToT τ t0 t1) → Feasible Q order n_s full coll t0 t1 res.x res.x_d →
      Through W N coll t0 t1 res.u.rows →
      ∃ H : ℕ → ℝ → Row,
        (∀ k c, c < n_s * order → c / n_s + k ≤ order → ∀ t, H k t c = (derivative^[c / n_s + k] (Q (c % n_s))).eval t) ∧
        ∀ n given, ∃ d, flat elib lib res p m none none n given = .ok d ∧
          Distributed p (instants t0 t1 n given).length n_q (fun k i c => H k (arr (instants t0 t1 n given) i) c) d ∧
          d.get "u" = some ⟨res.u.width, (instants t0 t1 n given).map fun t c => (W c).eval t⟩ ∧
          d.get "t" = some (column (instants t0 t1 n given)) := by
  obtain ⟨coll, full, k1, k2, H1⟩ := C110_feasible hs ho hm hj hN hq ht hpre lib
  refine ⟨coll, full, k1, k2, fun Q W res hQ r1 r2 r3 r4 hx hu => ?_⟩
  obtain ⟨H, hH, H2⟩ := H1 Q W res.x res.x_d res.u.rows hQ hx hu
  refine ⟨H, fun k c hc hk t => ?_, fun n given => ?_⟩
  · have h1 : c / n_s < order := Nat.div_lt_of_lt_mul hc
    have h2 : c % n_s < n_s := Nat.mod_lt _ (by omega)
    have := hH k (c / n_s) h1 hk (c % n_s) h2 t
    rwa [Nat.div_add_mod] at this
  obtain ⟨o1, o2⟩ := H2 n given
  have hold : ∀ k, Holds (instants t0 t1 n given).length (p * n_q) (fun i c => H k (arr (instants t0 t1 n given) i) c)
      ⟨n_s * order, (instants t0 t1 n given).map (H k)⟩ :=
    fun k => ⟨hpq.symm, by simp, fun i hi c hc => by rw [rows_map _ _ hi]⟩
  obtain ⟨d0, d, d1, d2, d3, d4, d5⟩ := ps_dict hp (u := ⟨res.u.width, (instants t0 t1 n given).map fun t c => (W c).eval t⟩)
    (t := column (instants t0 t1 n given)) (g := fun k i c => H k (arr (instants t0 t1 n given) i) c) (hold 0) (hold 1)
    (deriv := fun ii => interpolationsDerivBu lib res.x res.x_d (pre ++ scheme) order ii t0 t1 m "pol" n given)
    (fun ii => ⟨_, o2 ii, hold ii⟩)
  obtain ⟨coll', full', s', c1, c2, -, -, -, c6, c7, -⟩ := C32_rows hs hm hN
  rw [k2] at c2; cases c2
  obtain ⟨f0, f1⟩ := ends_of c6 c7 t0 t1
  refine ⟨d, ?_, d3, d4, d5⟩
  simp only [flat, r4, f0, f1, show p ≠ 0 by omega, if_false, hx.width, ← hpq, Nat.mul_mod_right, not_true, r2,
    show ("bottom-up pseudospectral" : String) ≠ "equispaced" by decide,
    show ("bottom-up pseudospectral" : String) ≠ "pseudospectral" by decide, if_true, bu, Option.getD_none, bind, Except.bind,
    instantsOf_eq]
  rw [r1, r3, o1]
  dsimp only
  rw [d1]
  exact d2

/-! ## C114: top-down results -/

/-- C114: the same for top-down results; the states stored in the result are not read, except for their number. -/
theorem C114 {scheme : String} (hs : scheme ∈ buImplemented) {order m : ℕ} (ho : 1 ≤ order) (hm : 1 ≤ m)
    {N : ℕ} (hN : minPoints scheme ≤ N) {n_s : ℕ} (hq : 1 ≤ n_s)
    {t0 t1 : ℝ} (ht : t0 ≠ t1) {pre : String} (hpre : pre = "" ∨ pre = "TD_") (elib : (d : ℕ) → Interp.Lib d Row) (lib : Lib)
    {p n_q : ℕ} (hp : 1 ≤ p) (hpq : p * n_q = n_s * order) (n : ℕ) (given : Option (List ℝ)) (save : Bool) :
    ∃ coll full nu, buCollPoints N scheme m = .ok coll ∧ tdConstructionPoints N scheme m = .ok full ∧
      collPoints (order + N) "LGL" = .ok nu ∧
      ∀ (Q W : ℕ → ℝ[X]) (q_constr : Arr2) (res : Res), (∀ j < n_s, (Q j).degree < (order + N : ℕ)) →
      res.scheme = pre ++ scheme → res.scheme_mode = "top-down pseudospectral" →
      res.t = full.map (fun τ => tauToT τ t0 t1) → res.q_constr = some q_constr →
      SamplesAt Q 1 n_s 0 (nu.map fun τ => tauToT τ t0 t1) q_constr → res.x.width = n_s * order →
      res.u.rows.length = N → Through W N coll t0 t1 res.u.rows →
      ∃ d, interpolation elib lib res p m none none n save (asGiven given)
          = .ok ({ arrs := d }, if save then { res with interpolations := some { arrs := d } } else res) ∧
        Distributed p (instants t0 t1 n given).length n_q
          (fun ii i c => (derivative^[c / n_s + ii] (Q (c % n_s))).eval (arr (instants t0 t1 n given) i)) d ∧
        d.get "u" = some ⟨res.u.width, (instants t0 t1 n given).map fun t c => (W c).eval t⟩ ∧
        d.get "t" = some (column (instants t0 t1 n given)) := by
  obtain ⟨coll, nu, k1, k2, H1⟩ := C111_interp hs ho hm hN hq ht hpre lib n given
  obtain ⟨coll', full, s', c1, -, c2, -, -, c6, c7, -⟩ := C32_rows hs hm hN
  refine ⟨coll, full, nu, k1, c2, k2, fun Q W q_constr res hQ r1 r2 r4 r5 hqc hxw hul hu => ?_⟩
  obtain ⟨o, o1, o2, o3, o4⟩ := H1 Q W q_constr res.x res.x_d res.u.rows hQ hqc hxw hul hu
  have hder : ∀ ii, ∃ a, interpolationsDerivTd lib q_constr res.x res.x_d res.scheme ii t0 t1 res.u.rows.length m "pol" n given
      = .ok a ∧ Holds (instants t0 t1 n given).length (p * n_q)
        (fun i c => (derivative^[c / n_s + ii] (Q (c % n_s))).eval (arr (instants t0 t1 n given) i)) a := by
    intro ii
    obtain ⟨nu', k2', H2⟩ := C111_deriv hs ho hm hN hq ht hpre lib n given ii
    rw [k2] at k2'; cases k2'
    obtain ⟨a, a1, a2⟩ := H2 Q q_constr res.x res.x_d hQ hqc hxw
    rw [r1, hul]
    exact ⟨a, a1, samples_holds a2 hpq⟩
  obtain ⟨d0, d, d1, d2, d3, d4, d5⟩ := ps_dict hp (x := o.x) (x_dot := o.x_dot) (u := ⟨res.u.width, o.u⟩)
    (t := column (instants t0 t1 n given))
    (g := fun ii i c => (derivative^[c / n_s + ii] (Q (c % n_s))).eval (arr (instants t0 t1 n given) i))
    (samples_holds o2 hpq) (samples_holds o3 hpq) hder
  obtain ⟨f0, f1⟩ := ends_of c6 c7 t0 t1
  refine ⟨d, interpolation_flat save (by rw [r2]; decide) ?_, d3, by rw [d4, o4], d5⟩
  simp only [flat, r4, f0, f1, show p ≠ 0 by omega, if_false, hxw, ← hpq, Nat.mul_mod_right, not_true, r2,
    show ("top-down pseudospectral" : String) ≠ "equispaced" by decide,
    show ("top-down pseudospectral" : String) ≠ "pseudospectral" by decide,
    show ("top-down pseudospectral" : String) ≠ "bottom-up pseudospectral" by decide, if_true, td, Option.getD_none, bind,
    Except.bind, instantsOf_eq, r5, need]
  rw [r1] at d1 ⊢
  rw [o1]
  dsimp only
  rw [d1]
  exact d2

/-! ## C115: node results -/

theorem through_eq {t0 t1 : ℝ} (ht : t0 ≠ t1) {n : ℕ} {nodes : List ℝ} (hl : nodes.length = n) (hd : Distinct n (arr nodes))
    {p r : ℝ[X]} (hp : p.degree < n) (hr : r.degree < n)
    (h : ∀ i < n, p.eval (tauToT (arr nodes i) t0 t1) = r.eval (tauToT (arr nodes i) t0 t1)) : p = r := by
  subst hl
  have hd' := distinct_time ht hd
  apply Polynomial.eq_of_degrees_lt_of_eval_index_eq (v := fun i => arr (nodes.map fun τ => tauToT τ t0 t1) i)
    (Finset.range nodes.length)
  · intro i hi j hj e
    exact hd' i (by simpa using hi) j (by simpa using hj) e
  · simpa using hp
  · simpa using hr
  · intro i hi
    have hi' := Finset.mem_range.1 hi
    rw [arr_map _ _ hi']
    exact h i hi'

theorem hcat_holds {n a b : ℕ} {g g' : ℕ → ℕ → ℝ} {x y : Arr2} (hx : Holds n a g x) (hy : Holds n b g' y) :
    Holds n (a + b) (fun i c => if c < a then g i c else g' i (c - a)) (hcat x y) := by
  obtain ⟨x1, x2, x3⟩ := hx
  obtain ⟨y1, y2, y3⟩ := hy
  refine ⟨by simp [hcat, x1, y1], by simp [hcat, x2, y2], fun i hi c hc => ?_⟩
  have e : rows (hcat x y).rows i c = if c < x.width then rows x.rows i c else rows y.rows i (c - x.width) := by
    have h1 : i < x.rows.length := by omega
    have h2 : i < y.rows.length := by omega
    simp [hcat, rows, h1, h2]
  rw [e, x1]
  dsimp only
  split_ifs with h
  · exact x3 i hi c h
  · exact y3 i hi (c - a) (by omega)

theorem head_of_arr {full : List ℝ} (he0 : arr full 0 = -1) (he1 : arr full (full.length - 1) = 1) :
    full.head? = some (-1) := by
  rcases full with _ | ⟨a, l⟩
  · exfalso
    have : arr ([] : List ℝ) 0 = arr [] (List.length ([] : List ℝ) - 1) := rfl
    rw [he0, he1] at this
    norm_num at this
  · rw [← he0]; rfl

theorem last_of_arr {full : List ℝ} (he0 : arr full 0 = -1) (he1 : arr full (full.length - 1) = 1) :
    full.getLast? = some 1 := by
  have hhead := head_of_arr he0 he1
  have : 0 < full.length := by
    rcases full with _ | ⟨a, l⟩
    · simp at hhead
    · simp
  rw [List.getLast?_eq_getElem?, ← he1, arr, List.getD_eq_getElem?_getD, List.getElem?_eq_getElem (by omega)]; rfl

/-- The arrays at the nodes in a result of a solver of order `s` with `n_s` coordinates: `x_node` has all the columns,
`q_node` the first ones, and `v_node` the second ones, or the derivatives at the nodes for order 1. -/
def NodeData (P : ℕ → ℝ[X]) (s n n_s : ℕ) (nodes : List ℝ) (t0 t1 : ℝ) (res : Res) : Prop :=
  ∃ xn qn vn : Arr2, res.x_node = some xn ∧ res.q_node = some qn ∧ res.v_node = some vn ∧
    xn.width = s * n_s ∧ qn.width = n_s ∧ vn.width = n_s ∧ xn.rows.length = n ∧ qn.rows.length = n ∧ vn.rows.length = n ∧
    (∀ c < s * n_s, (P c).degree < n) ∧
    (∀ i < n, ∀ c < s * n_s, rows xn.rows i c = (P c).eval (tauToT (arr nodes i) t0 t1)) ∧
    (∀ i < n, ∀ c < n_s, rows qn.rows i c = rows xn.rows i c) ∧
    (∀ i < n, ∀ c < n_s, rows vn.rows i c =
      if s = 1 then (derivative (P c)).eval (tauToT (arr nodes i) t0 t1) else rows xn.rows i (n_s + c))

/-- C115: for a result of a node based scheme of order 1 or 2 whose columns are samples of polynomials, `interpolation`
returns the derivatives of these polynomials under the names of the derivatives of `q`. -/
theorem C115 {scheme : String} (hs : scheme ∈ implemented) {N : ℕ} (hN : minPoints scheme ≤ N)
    {t0 t1 : ℝ} (ht : t0 ≠ t1) (elib : (d : ℕ) → Interp.Lib d Row) (lib : Lib) {s n_s : ℕ} (hso : s = 1 ∨ s = 2)
    {p n_q : ℕ} (hp : 1 ≤ p) (hpq : p * n_q = s * n_s) (m k : ℕ) (given : Option (List ℝ)) (save : Bool) :
    ∃ coll full n nodes, collPoints N scheme = .ok coll ∧ arrPoints N scheme = .ok full ∧ nColToNNodes scheme N = .ok n ∧
      nodePoints n scheme = .ok nodes ∧
      ∀ (P W : ℕ → ℝ[X]) (res : Res), res.scheme = scheme → res.scheme_mode = "pseudospectral" → res.solve_order = s →
      res.t = full.map (fun τ => tauToT τ t0 t1) → res.x.width = s * n_s → NodeData P s n n_s nodes t0 t1 res →
      res.u.rows.length = N → Through W N coll t0 t1 res.u.rows →
      ∃ d, interpolation elib lib res p m none none k save (asGiven given)
          = .ok ({ arrs := d }, if save then { res with interpolations := some { arrs := d } } else res) ∧
        Distributed p (instants t0 t1 k given).length n_q
          (fun ii i c => (derivative^[ii] (P c)).eval (arr (instants t0 t1 k given) i)) d ∧
        d.get "u" = some ⟨res.u.width, (instants t0 t1 k given).map fun t c => (W c).eval t⟩ ∧
        d.get "t" = some (column (instants t0 t1 k given)) := by
  obtain ⟨coll, n, nodes, full, k1, k2, k3, k4, hlen, hd, hsort, he0, he1, hn1, hcl, -⟩ := node_rows hs hN
  obtain ⟨coll', n', nodes', c1, c2, c3, H⟩ := C103_interp lib hs hN ht
  rw [k1] at c1; cases c1
  rw [k2] at c2; cases c2
  rw [k3] at c3; cases c3
  refine ⟨coll, full, n, nodes, k1, k4, k2, k3, fun P W res r1 r2 r3 r4 hxw hdata hul hu => ?_⟩
  obtain ⟨xn, qn, vn, a1, a2, a3, w1, w2, w3, l1, l2, l3, hP, hX, hqv, hvv⟩ := hdata
  obtain ⟨o, pq, pv, pu, o1, o2, o3, o4, e1, e2, e3, e4, e5, e6⟩ := H qn.rows vn.rows res.u.rows k given l2 l3 hul
  obtain ⟨ts, hts⟩ : ∃ ts, ts = instants t0 t1 k given := ⟨_, rfl⟩
  rw [← hts] at e1 e2 e3 e4 e5 e6 ⊢
  have hle : s * n_s ≥ n_s := by rcases hso with rfl | rfl <;> omega
  have hpq' : ∀ c < n_s, pq c = P c := by
    intro c hc
    apply through_eq ht hlen hd (o2 c).1 (hP c (by omega))
    intro i hi
    rw [← (o2 c).2 i hi, hqv i hi c hc, hX i hi c (by omega)]
  have hpv' : ∀ c < n_s, pv c = if s = 1 then derivative (P c) else P (n_s + c) := by
    intro c hc
    apply through_eq ht hlen hd (o3 c).1
    · split_ifs with h
      · exact lt_of_le_of_lt (degree_derivative_le) (hP c (by omega))
      · have : s = 2 := by omega
        subst this
        exact hP _ (by omega)
    · intro i hi
      rw [← (o3 c).2 i hi, hvv i hi c hc]
      split_ifs with h
      · rfl
      · have : s = 2 := by omega
        subst this
        exact hX i hi _ (by omega)
  have hpu' : ∀ c, pu c = W c := by
    intro c
    obtain ⟨coll', g1, g2, g3, -⟩ := C21_points hs (order := 2) (by norm_num) hN
    rw [k1] at g1; cases g1
    subst hcl
    apply through_eq ht rfl (distinct_arr g3) (o4 c).1 (hu c).1
    intro i hi
    rw [← (o4 c).2 i hi, (hu c).2 i hi]
  have hder : ∀ ii, ∃ a, (do
      let a ← interpolationsDerivPs lib xn.rows res.scheme ii t0 t1 "pol" k given
      return ⟨xn.width, a⟩ : Except PsErr Arr2) = .ok a ∧
      Holds ts.length (p * n_q) (fun i c => (derivative^[ii] (P c)).eval (arr ts i)) a := by
    intro ii
    obtain ⟨n', nodes', c2', c3', H2⟩ := C103_deriv lib hs hN ht
    rw [k2] at c2'; cases c2'
    rw [k3] at c3'; cases c3'
    obtain ⟨a, q, b1, b2, b3⟩ := H2 xn.rows ii k given l1
    rw [r1, b1]
    refine ⟨_, rfl, by rw [w1, hpq], by rw [b3, ← hts]; simp, fun i hi c hc => ?_⟩
    rw [hpq] at hc
    have hqc : q c = P c := by
      apply through_eq ht hlen hd (b2 c).1 (hP c hc)
      intro i hi
      rw [← (b2 c).2 i hi, hX i hi c hc]
    rw [b3, ← hts, rows_map _ _ hi, hqc]
  have hcol : ∀ (w : ℕ) (f : ℝ → Row) (g : ℕ → ℕ → ℝ), (∀ i < ts.length, ∀ c < w, f (arr ts i) c = g i c) →
      Holds ts.length w g ⟨w, ts.map f⟩ := by
    intro w f g h
    exact ⟨rfl, by simp, fun i hi c hc => by rw [rows_map _ _ hi, h i hi c hc]⟩
  obtain ⟨x, x_dot, hxx, hx0, hx1⟩ : ∃ x x_dot, nodeArrays s qn.width vn.width o = .ok (x, x_dot) ∧
      Holds ts.length (p * n_q) (fun i c => (derivative^[0] (P c)).eval (arr ts i)) x ∧
      Holds ts.length (p * n_q) (fun i c => (derivative^[1] (P c)).eval (arr ts i)) x_dot := by
    rw [hpq, w2, w3]
    rcases hso with rfl | rfl
    · refine ⟨_, _, rfl, ?_, ?_⟩
      · rw [one_mul, e1]
        exact hcol _ _ _ fun i hi c hc => by rw [hpq' c hc]; rfl
      · rw [one_mul, e4]
        exact hcol _ _ _ fun i hi c hc => by rw [hpv' c hc, if_pos rfl]; rfl
    · have h2 : ∀ {g : ℕ → ℕ → ℝ} {g1 g2 : ℕ → ℕ → ℝ} {a : Arr2}, Holds ts.length (n_s + n_s) g a →
          (∀ i < ts.length, ∀ c < 2 * n_s, g i c = g1 i c) → Holds ts.length (2 * n_s) g1 a := by
        intro g g1 g2 a ha he
        rw [two_mul] at he ⊢
        exact ⟨ha.1, ha.2.1, fun i hi c hc => by rw [ha.2.2 i hi c hc, he i hi c hc]⟩
      refine ⟨_, _, rfl, ?_, ?_⟩
      · rw [e1, e4]
        refine h2 (g2 := fun _ _ => 0) (hcat_holds
          (hcol n_s _ (fun i c => (P c).eval (arr ts i)) fun i hi c hc => by rw [hpq' c hc])
          (hcol n_s _ (fun i c => (P (n_s + c)).eval (arr ts i)) fun i hi c hc => by rw [hpv' c hc, if_neg (by omega)])) ?_
        intro i hi c hc
        split_ifs with h
        · rfl
        · rw [show n_s + (c - n_s) = c by omega]; rfl
      · rw [e2, e5]
        refine h2 (g2 := fun _ _ => 0) (hcat_holds
          (hcol n_s _ (fun i c => (derivative (P c)).eval (arr ts i)) fun i hi c hc => by rw [hpq' c hc])
          (hcol n_s _ (fun i c => (derivative (P (n_s + c))).eval (arr ts i)) fun i hi c hc => by
            rw [hpv' c hc, if_neg (by omega)])) ?_
        intro i hi c hc
        split_ifs with h
        · rfl
        · rw [show n_s + (c - n_s) = c by omega]; rfl
  obtain ⟨d0, d, d1, d2, d3, d4, d5⟩ := ps_dict hp (x := x) (x_dot := x_dot) (u := ⟨res.u.width, o.u⟩) (t := column ts)
    (g := fun ii i c => (derivative^[ii] (P c)).eval (arr ts i)) hx0 hx1 hder
  obtain ⟨f0, f1⟩ := ends_of (head_of_arr he0 he1) (last_of_arr he0 he1) t0 t1
  refine ⟨d, interpolation_flat save (by rw [r2]; decide) ?_, d3, ?_, d5⟩
  · simp only [flat, r4, f0, f1, show p ≠ 0 by omega, if_false, hxw, ← hpq, Nat.mul_mod_right, not_true, r2,
      show ("pseudospectral" : String) ≠ "equispaced" by decide, if_true, node, Option.getD_none, bind, Except.bind,
      instantsOf_eq, a1, a2, a3, need, ← hts]
    rw [r1] at d1 ⊢
    rw [o1]
    dsimp only
    rw [r3, hxx]
    dsimp only
    simp only [bind, Except.bind] at d1
    rw [d1]
    exact d2
  · rw [d4, e6]
    have : pu = W := funext hpu'
    rw [this]

/-- C115 has no counterpart for higher orders: `interpolation` of a node based result of any other order raises. -/
theorem C115_order {scheme : String} (hs : scheme ∈ implemented) {N : ℕ} (hN : minPoints scheme ≤ N)
    {t0 t1 : ℝ} (ht : t0 ≠ t1) (elib : (d : ℕ) → Interp.Lib d Row) (lib : Lib) {s n_s : ℕ} (hso : s ≠ 1 ∧ s ≠ 2)
    {p n_q : ℕ} (hp : 1 ≤ p) (hpq : p * n_q = s * n_s) (m k : ℕ) (given : Option (List ℝ)) (save : Bool) :
    ∃ n nodes full, nColToNNodes scheme N = .ok n ∧ nodePoints n scheme = .ok nodes ∧ arrPoints N scheme = .ok full ∧
      ∀ (P : ℕ → ℝ[X]) (res : Res), res.scheme = scheme → res.scheme_mode = "pseudospectral" → res.solve_order = s →
      res.t = full.map (fun τ => tauToT τ t0 t1) → res.x.width = s * n_s → NodeData P s n n_s nodes t0 t1 res →
      res.u.rows.length = N →
      interpolation elib lib res p m none none k save (asGiven given) = .error .notImplemented := by
  obtain ⟨coll, n, nodes, full, k1, k2, k3, k4, hlen, hd, hsort, he0, he1, hn1, hcl, -⟩ := node_rows hs hN
  obtain ⟨coll', n', nodes', c1, c2, c3, H⟩ := C103_interp lib hs hN ht
  rw [k1] at c1; cases c1
  rw [k2] at c2; cases c2
  rw [k3] at c3; cases c3
  refine ⟨n, nodes, full, k2, k3, k4, fun P res r1 r2 r3 r4 hxw hdata hul => ?_⟩
  obtain ⟨xn, qn, vn, a1, a2, a3, w1, w2, w3, l1, l2, l3, -⟩ := hdata
  obtain ⟨o, pq, pv, pu, o1, -⟩ := H qn.rows vn.rows res.u.rows k given l2 l3 hul
  obtain ⟨f0, f1⟩ := ends_of (head_of_arr he0 he1) (last_of_arr he0 he1) t0 t1
  have e : flat elib lib res p m none none k given = .error .notImplemented := by
    simp only [flat, r4, f0, f1, show p ≠ 0 by omega, if_false, hxw, ← hpq, Nat.mul_mod_right, not_true, r2,
      show ("pseudospectral" : String) ≠ "equispaced" by decide, if_true, node, Option.getD_none, bind, Except.bind,
      a1, a2, a3, need, r1, o1, r3, nodeArrays, hso.1, hso.2]
  cases given <;>
    simp only [interpolation, r2, show (("pseudospectral" : String).toList.take 3 = ['p', 'h', ' ']) = False by decide,
      if_false, asGiven, e, bind, Except.bind]

/-! ## Concrete cases -/

/-- A bottom-up result for every motion: the hypotheses of C113 can be met. -/
example : ∃ full, buArrPoints 2 "LG" 2 = .ok full ∧ ∃ res : Res, res.scheme = "BU_" ++ "LG" ∧
    res.scheme_mode = "bottom-up pseudospectral" ∧ res.solve_order = 2 ∧ res.t = full.map (fun τ => tauToT τ 1 3) ∧
    SamplesAt (fun _ => X ^ 3) 2 1 0 (full.map fun τ => tauToT τ 1 3) res.x ∧
    SamplesAt (fun _ => X ^ 3) 2 1 1 (full.map fun τ => tauToT τ 1 3) res.x_d := by
  obtain ⟨coll, full, s, -, c2, -⟩ := C32_rows (scheme := "LG") (by decide) (order := 2) (N := 2) (by norm_num) (by decide)
  obtain ⟨ts, hts⟩ : ∃ ts, ts = full.map fun τ => tauToT τ 1 3 := ⟨_, rfl⟩
  have h : ∀ d, SamplesAt (fun _ => X ^ 3) 2 1 d ts ⟨2, ts.map fun t c => (derivative^[c + d] (X ^ 3 : ℝ[X])).eval t⟩ := by
    intro d
    refine ⟨rfl, by simp, fun i hi k hk j hj => ?_⟩
    obtain rfl : j = 0 := by omega
    rw [rows_map _ _ hi, one_mul, add_zero]
  refine ⟨full, c2, ⟨"BU_" ++ "LG", "bottom-up pseudospectral", 2,
    ⟨2, ts.map fun t c => (derivative^[c + 0] (X ^ 3 : ℝ[X])).eval t⟩, ⟨2, ts.map fun t c => (derivative^[c + 1] (X ^ 3 : ℝ[X])).eval t⟩,
    ⟨0, []⟩, ts, none, none, none, none, none, none, none,
    none, none, none⟩, rfl, rfl, rfl, hts, ?_, ?_⟩
  · rw [← hts]; exact h 0
  · rw [← hts]; exact h 1

/-- A top-down result. -/
example : ∃ nu, collPoints (2 + 2) "LGL" = .ok nu ∧ ∃ q_constr, SamplesAt (fun _ => X ^ 3) 1 1 0 (nu.map fun τ => tauToT τ 1 3) q_constr := by
  obtain ⟨nu, n1, -⟩ := lgl_points (n := 2 + 2) (by omega)
  refine ⟨nu, n1, ⟨1, (nu.map fun τ => tauToT τ 1 3).map fun t _ => (X ^ 3 : ℝ[X]).eval t⟩, rfl, by simp, fun i hi k hk j hj => ?_⟩
  obtain rfl : k = 0 := by omega
  rw [rows_map _ _ hi]; rfl

/-- A node based result of order 2. -/
example : ∃ n nodes, nColToNNodes "LG" 3 = .ok n ∧ nodePoints n "LG" = .ok nodes ∧ ∃ res : Res,
    NodeData (fun c => if c = 0 then X ^ 2 else 2 * X) 2 n 1 nodes 1 3 res := by
  obtain ⟨coll, n, nodes, full, k1, k2, k3, k4, hlen, -⟩ := node_rows (scheme := "LG") (by decide) (N := 3) (by decide)
  obtain rfl : n = 4 := by
    simp [nColToNNodes, gaussLike] at k2
    omega
  obtain ⟨ts, hts⟩ : ∃ ts, ts = nodes.map fun τ => tauToT τ 1 3 := ⟨_, rfl⟩
  have hl : ts.length = 4 := by rw [hts, List.length_map, hlen]
  refine ⟨4, nodes, k2, k3, ⟨"LG", "pseudospectral", 2, ⟨0, []⟩, ⟨0, []⟩, ⟨0, []⟩, [], none, none, none,
    some ⟨1, ts.map fun t _ => t ^ 2⟩, some ⟨1, ts.map fun t _ => 2 * t⟩,
    some ⟨2, ts.map fun t c => if c = 0 then t ^ 2 else 2 * t⟩, none, none, none, none⟩, _, _, _, rfl, rfl, rfl, rfl, rfl, rfl,
    by simp [hl], by simp [hl], by simp [hl], fun c hc => ?_, fun i hi c hc => ?_, fun i hi c hc => ?_, fun i hi c hc => ?_⟩
  · dsimp only
    split_ifs
    · exact lt_of_le_of_lt (degree_X_pow_le _) (by norm_cast)
    · refine lt_of_le_of_lt (degree_mul_le _ _) ?_
      rw [show (2 : ℝ[X]) = Polynomial.C 2 from rfl, degree_C (by norm_num), degree_X]
      norm_cast
  · have e : arr ts i = tauToT (arr nodes i) 1 3 := by rw [hts, arr_map _ _ (by omega)]
    rw [← e]
    dsimp only
    rw [rows_map _ _ (by omega)]
    split_ifs <;> simp
  · obtain rfl : c = 0 := by omega
    dsimp only
    rw [rows_map _ _ (by omega), rows_map _ _ (by omega), if_pos rfl]
  · obtain rfl : c = 0 := by omega
    dsimp only
    rw [if_neg (by omega), rows_map _ _ (by omega), rows_map _ _ (by omega), if_neg (by omega)]

/-- The names of a problem of order 2. -/
example (n n_q : ℕ) (g : ℕ → ℕ → ℕ → ℝ) (d : Arrays) (h : Distributed 2 n n_q g d) :
    ∃ q v q_d q_dd a, d.get "q" = some q ∧ d.get "v" = some v ∧ d.get "q_d" = some q_d ∧ d.get "q_d_d" = some q_dd ∧
      d.get "a" = some a ∧ Holds n n_q (fun i c => g 0 i c) q ∧ Holds n n_q (fun i c => g 0 i (n_q + c)) v ∧
      Holds n n_q (fun i c => g 1 i c) q_d ∧ Holds n n_q (fun i c => g 2 i c) q_dd ∧
      Holds n n_q (fun i c => g 1 i (n_q + c)) a := by
  obtain ⟨n1, q, e1, e2, e3⟩ := h.block 0 0 (by norm_num)
  obtain ⟨n2, v, f1, f2, f3⟩ := h.block 0 1 (by norm_num)
  obtain ⟨n3, q_d, g1, g2, g3⟩ := h.block 1 0 (by norm_num)
  obtain ⟨n4, q_dd, i1, i2, i3⟩ := h.block 2 0 (by norm_num)
  obtain ⟨n5, a, j1, j2, j3⟩ := h.last
  have hn : qAndDersNames 2 = ["q", "v", "a"] := by decide
  rw [hn] at e1 f1 g1 i1 j1
  simp only [List.getElem?_cons_zero, List.getElem?_cons_succ, Option.some.injEq] at e1 f1 g1 i1 j1
  subst e1 f1 g1 i1 j1
  refine ⟨q, v, q_d, q_dd, a, e2, f2, g2, i2, j2, ?_, ?_, ?_, ?_, ?_⟩
  · simpa using e3
  · simpa using f3
  · simpa using g3
  · simpa using i3
  · simpa using j3

end Chords.Props
