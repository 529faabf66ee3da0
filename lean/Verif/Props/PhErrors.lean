import Verif.Props.InterpErrors
import Verif.Props.PhInterp

/-! # C122: the dynamic errors of results in segments -/

namespace Chords.Props
open Polynomial Chords.Points Chords.Spec Chords.Bary Chords.TimeScale Chords.PsInterp Chords.BuTdInterp Chords.DynErr
  Chords.Interpolation Chords.Problem

/-- The motion of the segment of the sample `i`. -/
noncomputable def motionOf (Q : ℕ → ℕ → ℝ[X]) (qs : List (ℕ × ℝ)) (i : ℕ) : ℕ → ℝ[X] := Q (qs.getD i (0, 0)).1

/-- The errors of a motion in segments, `qs` being the samples with their segments: the compatibility errors are zero, the
dynamic error is the highest derivative of the motion of the segment minus the dynamics there, and the result gets the
interpolations and, on request, the errors. -/
def SegErrors (p n_q : ℕ) (Q W : ℕ → ℕ → ℝ[X]) (qs : List (ℕ × ℝ)) (F : Row → Row → Row) (save : Bool) (res : Res)
    (call : Except PsErr (Arrays × Res)) : Prop :=
  ∃ errs res' a, call = .ok (errs, res') ∧ Arrays.get errs "dyn_err_interp" = some a ∧
    Holds qs.length n_q (fun i c => (derivative^[p] (motionOf Q qs i c)).eval (qs.getD i (0, 0)).2
      - F (stateAt (motionOf Q qs i) n_q (qs.getD i (0, 0)).2) (fun c => (motionOf W qs i c).eval (qs.getD i (0, 0)).2)
        (n_q * (p - 1) + c)) a ∧
    (∀ k, 1 ≤ k → k < p → ∃ e, Arrays.get errs ("compat_err_" ++ toString k ++ "_interp") = some e ∧
      Holds qs.length n_q (fun _ _ => 0) e) ∧
    ∃ out, res' = { res with interpolations := some out, error := if save then some errs else res.error }

theorem seg_errors {p n_q : ℕ} (hp : 1 ≤ p) (hq : 1 ≤ n_q) {Q W : ℕ → ℕ → ℝ[X]} {qs : List (ℕ × ℝ)} {F : Row → Row → Row}
    (hF : Reads (p * n_q) F) {mode : String} (hmode : mode = "q" ∨ mode = "x") {save : Bool} {res res' : Res}
    {errs : Arrays} {w : ℕ} {call : Except PsErr (Arrays × Res)} (hc : call = .ok (errs, res')) {g : ℕ → ℕ → ℕ → ℝ}
    (hg : ∀ k i c, i < qs.length → c < n_q * p → c / n_q + k ≤ p →
      g k i c = (derivative^[c / n_q + k] (Q (qs.getD i (0, 0)).1 (c % n_q))).eval (qs.getD i (0, 0)).2)
    (h : ErrorsOf p qs.length n_q g (fun i => rows (⟨w, qs.map fun q c => (W q.1 c).eval q.2⟩ : Arr2).rows i) F mode save res
      errs res') : SegErrors p n_q Q W qs F save res call := by
  obtain ⟨⟨a, a1, a2⟩, hk, -, d, lists, d1, -⟩ := h
  have hle : n_q ≤ n_q * p := Nat.le_mul_of_pos_right _ hp
  refine ⟨errs, res', a, hc, a1, ⟨a2.1, a2.2.1, fun i hi c hcc => ?_⟩, fun k hk1 hk2 => ?_, ⟨_, d1⟩⟩
  · rw [a2.2.2 i hi c hcc]
    dsimp only
    rw [hg p i c hi (by omega) (by rw [Nat.div_eq_of_lt hcc]; omega), Nat.div_eq_of_lt hcc, Nat.mod_eq_of_lt hcc, zero_add]
    unfold motionOf
    congr 1
    have e : rows (qs.map fun q c => (W q.1 c).eval q.2) i = fun c => (W (qs.getD i (0, 0)).1 c).eval (qs.getD i (0, 0)).2 := by
      funext c; simp [rows, hi]
    rw [e]
    refine congrFun (hF _ _ _ fun c' hc' => ?_) _
    rw [mul_comm] at hc'
    have hd : c' / n_q < p := Nat.div_lt_of_lt_mul hc'
    have hm : c' % n_q < n_q := Nat.mod_lt _ (by omega)
    unfold stateIn stateAt
    rcases hmode with rfl | rfl
    · rw [if_pos rfl, hg _ i _ hi (by omega) (by rw [Nat.div_eq_of_lt hm]; omega), Nat.div_eq_of_lt hm, Nat.mod_mod, zero_add]
    · rw [if_neg (by decide), hg _ i _ hi hc' (by omega), add_zero]
  · obtain ⟨e, e1, e2⟩ := hk k hk1 hk2
    refine ⟨e, e1, e2.1, e2.2.1, fun i hi c hcc => ?_⟩
    have hb : (n_q * k + c) / n_q = k := by rw [Nat.mul_add_div (by omega), Nat.div_eq_of_lt hcc, add_zero]
    have hlt : n_q * k + c < n_q * p := by
      calc n_q * k + c < n_q * k + n_q := by omega
        _ = n_q * (k + 1) := by ring
        _ ≤ n_q * p := Nat.mul_le_mul_left _ hk2
    rw [e2.2.2 i hi c hcc]
    dsimp only
    rw [hg k i c hi (by omega) (by rw [Nat.div_eq_of_lt hcc]; omega), hg 0 i _ hi hlt (by rw [hb]; omega), hb,
      Nat.div_eq_of_lt hcc, Nat.mod_eq_of_lt hcc, Nat.mul_add_mod, Nat.mod_eq_of_lt hcc]
    simp

/-- C122: the errors of a bottom-up result in segments. Nothing is assumed about the derivatives at the knots. -/
theorem C122_bu {scheme : String} (hs : scheme ∈ buImplemented) {p m : ℕ} (hp : 1 ≤ p) (hm : 1 ≤ m)
    (hj : m = 2 ∨ scheme ∉ jacobiSchemes) {n_q : ℕ} (hq : 1 ≤ n_q) {t0 tf : ℝ} (ht : t0 < tf) {knots : List ℝ}
    (hin : ∀ k ∈ knots, t0 < k ∧ k < tf) (hsort : knots.Pairwise (· < ·)) {N : ℕ → ℕ}
    (hN : ∀ ii ≤ knots.length, minPoints scheme ≤ N ii) (elib : (d : ℕ) → Interp.Lib d Row) (lib : Lib)
    {n : ℕ} {given : Option (List (List ℝ))}
    (hg : InstantsOk n (knots.length + 1) given) (save : Bool) {Q W : ℕ → ℕ → ℝ[X]} {w : ℕ} {res : Res} {s : Segs}
    (hQ : ∀ ii ≤ knots.length, ∀ j < n_q, (Q ii j).degree < (p + N ii : ℕ))
    (r1 : res.scheme = scheme) (r2 : res.scheme_mode = "ph bottom-up pseudospectral") (r3 : res.solve_order = p)
    (r4 : res.t.head? = some t0) (r5 : res.t.getLast? = some tf) (r6 : res.x.width = n_q * p) (r7 : res.segs = some s)
    (hd : SegData s (fun N => buCollPoints N scheme m) t0 tf knots N w W)
    (hx : SegFeasible s (fun N => buCollPoints N scheme m) t0 tf knots N p n_q Q) {F : Row → Row → Row}
    (hF : Reads (p * n_q) F) {mode : String} (hmode : mode = "q" ∨ mode = "x") :
    SegErrors p n_q Q W (segSamples t0 tf knots n given) F save res
      (dynamicErrors elib lib res F mode p m none none n save (asLists given)) := by
  obtain ⟨d, lists, d1, ⟨g, d2, hg'⟩, d3, d4, -⟩ := seg_feasible hs hp hm hj hq ht hin hsort hN elib lib hg true hQ r1 r2 r3 r4 r5 r6 r7 hd hx
  simp only [if_true] at d1
  obtain ⟨errs, res', e1, e2⟩ := dynamicErrors_of hp hq d1 d2 d3 hF hmode save
  exact seg_errors hp hq hF hmode e1 hg' e2

/-- C122: the errors of a top-down result in segments. -/
theorem C122_td {scheme : String} (hs : scheme ∈ buImplemented) {p m : ℕ} (hp : 1 ≤ p) (hm : 1 ≤ m)
    {n_q : ℕ} (hq : 1 ≤ n_q) {t0 tf : ℝ} (ht : t0 < tf) {knots : List ℝ}
    (hin : ∀ k ∈ knots, t0 < k ∧ k < tf) (hsort : knots.Pairwise (· < ·)) {N : ℕ → ℕ}
    (hN : ∀ ii ≤ knots.length, minPoints scheme ≤ N ii) (elib : (d : ℕ) → Interp.Lib d Row) (lib : Lib)
    {n : ℕ} {given : Option (List (List ℝ))}
    (hg : InstantsOk n (knots.length + 1) given) (save : Bool) {Q W : ℕ → ℕ → ℝ[X]} {w : ℕ} {res : Res} {s : Segs}
    (hQ : ∀ ii ≤ knots.length, ∀ j < n_q, (Q ii j).degree < (p + N ii : ℕ))
    (r1 : res.scheme = scheme) (r2 : res.scheme_mode = "ph top-down pseudospectral")
    (r4 : res.t.head? = some t0) (r5 : res.t.getLast? = some tf) (r6 : res.x.width = n_q * p) (r7 : res.segs = some s)
    (hd : SegData s (fun N => buCollPoints N scheme m) t0 tf knots N w W)
    (hx : SegConstr s t0 tf knots N p n_q Q) {F : Row → Row → Row}
    (hF : Reads (p * n_q) F) {mode : String} (hmode : mode = "q" ∨ mode = "x") :
    SegErrors p n_q Q W (segSamples t0 tf knots n given) F save res
      (dynamicErrors elib lib res F mode p m none none n save (asLists given)) := by
  obtain ⟨d, lists, d1, d2, d3, d4, -⟩ := C120 hs hp hm hq ht hin hsort hN elib lib hp (mul_comm p n_q) hg true hQ r1 r2 r4 r5 r6 r7 hd hx
  simp only [if_true] at d1
  obtain ⟨errs, res', e1, e2⟩ := dynamicErrors_of hp hq d1 d2 d3 hF hmode save
  exact seg_errors hp hq hF hmode e1 (fun _ _ _ _ _ _ => rfl) e2

/-- C122: the errors of a node based result in segments, with the columns `P`. Missing: the schemes of `C121_refuted`. -/
theorem C122_node_partial {scheme : String} (hs : scheme ∈ implemented) (h2 : scheme ∉ gauss2)
    {n_s o : ℕ} (hso : o = 1 ∨ o = 2) (hns : 1 ≤ n_s) {t0 tf : ℝ} (ht : t0 < tf) {knots : List ℝ}
    (hin : ∀ k ∈ knots, t0 < k ∧ k < tf) (hsort : knots.Pairwise (· < ·)) {N : ℕ → ℕ}
    (hN : ∀ ii ≤ knots.length, minPoints scheme ≤ N ii) (elib : (d : ℕ) → Interp.Lib d Row) (lib : Lib)
    {p n_q : ℕ} (hp : 1 ≤ p) (hq : 1 ≤ n_q) (hpq : p * n_q = o * n_s) (m : ℕ) {n : ℕ} {given : Option (List (List ℝ))}
    (hg : InstantsOk n (knots.length + 1) given) (save : Bool) {P W : ℕ → ℕ → ℝ[X]} {w : ℕ} {res : Res} {s : Segs}
    (hP : ∀ ii ≤ knots.length, ∀ n, nColToNNodes scheme (N ii) = .ok n → ∀ c < o * n_s, (P ii c).degree < n)
    (r1 : res.scheme = scheme) (r2 : res.scheme_mode = "ph pseudospectral") (r3 : res.solve_order = o)
    (r4 : res.t.head? = some t0) (r5 : res.t.getLast? = some tf) (r6 : res.x.width = o * n_s) (r7 : res.segs = some s)
    (r8 : s.n_q = n_s) (hd : SegData s (fun N => collPoints N scheme) t0 tf knots N w W)
    (hx : SegStates s (fun N => collPoints N scheme) t0 tf knots N 1 (o * n_s) P) {F : Row → Row → Row}
    (hF : Reads (p * n_q) F) {mode : String} (hmode : mode = "q" ∨ mode = "x") :
    ∃ errs res', dynamicErrors elib lib res F mode p m none none n save (asLists given) = .ok (errs, res') ∧
      ErrorsOf p (segSamples t0 tf knots n given).length n_q
        (fun k i c => (derivative^[k] (P ((segSamples t0 tf knots n given).getD i (0, 0)).1 c)).eval
          ((segSamples t0 tf knots n given).getD i (0, 0)).2)
        (fun i => rows ((segSamples t0 tf knots n given).map fun q c => (W q.1 c).eval q.2) i) F mode save res errs res' := by
  obtain ⟨d, lists, d1, d2, d3, d4, -⟩ := C121_partial hs h2 hso hns ht hin hsort hN elib lib hp hpq m hg true hP r1 r2 r3 r4 r5 r6 r7 r8 hd hx
  simp only [if_true] at d1
  exact dynamicErrors_of hp hq d1 d2 d3 hF hmode save

/-- Dynamics that meet the hypotheses; results that do are in `Verif.Props.PhInterp`. -/
example : Reads (2 * 1) (fun x u c => if c = 0 then x 1 else u 0 - x 0) := by
  intro x x' u h
  funext c
  simp only [h 0 (by norm_num), h 1 (by norm_num)]

end Chords.Props
