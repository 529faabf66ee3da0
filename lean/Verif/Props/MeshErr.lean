import Verif.Model.MeshErr
import Verif.Props.PhErrors
import Verif.Props.Adaptive
import Verif.Props.NumTools

/-! # C133, C134: the errors that guide the refinement of the mesh -/

namespace Chords.Props
open Polynomial Chords.Points Chords.Spec Chords.Bary Chords.TimeScale Chords.PsInterp Chords.BuTdInterp Chords.DynErr
  Chords.Interpolation Chords.Problem Chords.MeshErr
open Chords.Ph (linspace knotsExt)

/-- `v` is the largest absolute value of an array. -/
def IsMaxAbs (n w : ℕ) (f : ℕ → ℕ → ℝ) (v : ℝ) : Prop :=
  (∀ i < n, ∀ c < w, |f i c| ≤ v) ∧ ∃ i < n, ∃ c < w, v = |f i c|

/-- The dynamic error of the motion `Q` with the controls `W` at the instant `t`. -/
noncomputable def dynError (Q W : ℕ → ℝ[X]) (n_q : ℕ) (F : Row → Row → Row) (t : ℝ) (c : ℕ) : ℝ :=
  (derivative^[2] (Q c)).eval t - F (stateAt Q n_q t) (fun c => (W c).eval t) (n_q + c)

/-- What the two functions promise for results in segments with the motions `Q ii` and the controls `W ii`: at the test instants `T ii` of each
segment, which are the points of the scheme with one more point than the segment has, `analyze_res_err` gives the dynamic errors, and `max_err` the
largest of them divided by one plus the largest coordinate. -/
def MeshErrors (scheme : String) (t0 tf : ℝ) (knots : List ℝ) (N : ℕ → ℕ) (n_q : ℕ) (Q W : ℕ → ℕ → ℝ[X]) (F : Row → Row → Row)
    (elib : (d : ℕ) → Interp.Lib d Row) (lib : Lib) (r : SegRes) : Prop :=
  ∃ T : ℕ → List ℝ,
    (∀ ii ≤ knots.length, ∃ L, collPoints (N ii + 1) scheme = .ok L ∧
      T ii = L.map fun τ => tauToT τ (knot t0 tf knots ii) (knot t0 tf knots (ii + 1))) ∧
    ∃ errs r', analyzeResErr elib lib r F true = .ok (((List.range (knots.length + 1)).map T, errs), r') ∧
      SegList (knots.length + 1) n_q T (fun ii t c => dynError (Q ii) (W ii) n_q F t c) errs ∧
      r'.dyn_err_interp_list = some errs ∧ r'.t_err = some ((List.range (knots.length + 1)).map T).flatten ∧
      ∃ rel r'', maxErr elib lib r' = .ok (rel, r'') ∧ r''.max_rel_err = some rel ∧
        r''.point_structure = r.point_structure ∧ r''.res.segs = r.res.segs ∧ rel.length = knots.length + 1 ∧
        ∀ ii ≤ knots.length, ∃ e q, IsMaxAbs (T ii).length n_q (fun i c => dynError (Q ii) (W ii) n_q F (arr (T ii) i) c) e ∧
          IsMaxAbs (T ii).length n_q (fun i c => (Q ii c).eval (arr (T ii) i)) q ∧ rel[ii]? = some (e / (1 + q))

/-! ## Lemmas -/

theorem foldl_max_spec (l : List ℝ) : ∀ e : ℝ, e ≤ l.foldl max e ∧ (∀ x ∈ l, x ≤ l.foldl max e) ∧
    (l.foldl max e = e ∨ l.foldl max e ∈ l) := by
  induction l with
  | nil => intro e; simp
  | cons a l ih =>
    intro e
    obtain ⟨h1, h2, h3⟩ := ih (max e a)
    rw [List.foldl_cons]
    refine ⟨le_trans (le_max_left _ _) h1, fun x hx => ?_, ?_⟩
    · rcases List.mem_cons.1 hx with rfl | hx
      · exact le_trans (le_max_right _ _) h1
      · exact h2 x hx
    · rcases h3 with h3 | h3
      · rcases max_choice e a with h | h
        · exact Or.inl (by rw [h3, h])
        · exact Or.inr (by rw [h3, h]; exact List.mem_cons_self ..)
      · exact Or.inr (List.mem_cons_of_mem _ h3)

theorem absMax_spec {a : Arr2} {n w : ℕ} {f : ℕ → ℕ → ℝ} (h : Holds n w f a) (hn : 0 < n) (hw : 0 < w) :
    ∃ v, absMax a = .ok v ∧ IsMaxAbs n w f v := by
  obtain ⟨h1, h2, h3⟩ := h
  obtain ⟨l, hl⟩ : ∃ l, l = a.rows.flatMap fun row => (List.range a.width).map fun c => |row c| := ⟨_, rfl⟩
  have hmem : ∀ x, x ∈ l ↔ ∃ i < n, ∃ c < w, x = |f i c| := by
    intro x
    rw [hl, List.mem_flatMap]
    constructor
    · rintro ⟨row, hr, hx⟩
      obtain ⟨i, hi, rfl⟩ := List.mem_iff_getElem.1 hr
      obtain ⟨c, hc, rfl⟩ := List.mem_map.1 hx
      have hc' : c < w := by rw [← h1]; exact List.mem_range.1 hc
      refine ⟨i, by omega, c, hc', ?_⟩
      rw [← h3 i (by omega) c hc']
      simp [rows, hi]
    · rintro ⟨i, hi, c, hc, rfl⟩
      have hi' : i < a.rows.length := by omega
      refine ⟨a.rows[i], List.getElem_mem hi', List.mem_map.2 ⟨c, List.mem_range.2 (by omega), ?_⟩⟩
      rw [← h3 i hi c hc]
      simp [rows, hi']
  unfold absMax
  rw [← hl]
  cases l with
  | nil =>
    have := (hmem (|f 0 0|)).2 ⟨0, hn, 0, hw, rfl⟩
    simp at this
  | cons e es =>
    obtain ⟨m1, m2, m3⟩ := foldl_max_spec es e
    refine ⟨_, rfl, fun i hi c hc => ?_, ?_⟩
    · rcases List.mem_cons.1 ((hmem _).2 ⟨i, hi, c, hc, rfl⟩) with h | h
      · rw [h]; exact m1
      · exact m2 _ h
    · apply (hmem _).1
      rcases m3 with h | h
      · rw [h]; exact List.mem_cons_self ..
      · exact List.mem_cons_of_mem _ h

theorem splitErr_map {A B : Type} (f : A → B) (lens : List ℕ) : ∀ l : List A,
    Adaptive.splitErr lens (l.map f) = (Adaptive.splitErr lens l).map (List.map f) := by
  induction lens with
  | nil => intro l; rfl
  | cons n lens ih => intro l; simp only [Adaptive.splitErr, List.map_cons, ← List.map_take, ← List.map_drop, ih]

theorem splitErr_flatten {A : Type} (L : List (List A)) : Adaptive.splitErr (L.map List.length) L.flatten = L := by
  induction L with
  | nil => rfl
  | cons a L ih => simp only [List.map_cons, Adaptive.splitErr, List.flatten_cons, List.take_left', List.drop_left', ih]

/-- The rows of an array of the samples of all segments, split by segment. -/
theorem split_holds {S w : ℕ} {T : ℕ → List ℝ} {f : ℕ → ℝ → ℕ → ℝ} {a : Arr2} {qs : List (ℕ × ℝ)} (hqs : qs = samples false S T)
    (h : Holds qs.length w (fun i c => f (qs.getD i (0, 0)).1 (qs.getD i (0, 0)).2 c) a) :
    SegList S w T f ((Adaptive.splitErr ((List.range S).map fun ii => (T ii).length) a.rows).map fun l => (⟨a.width, l⟩ : Arr2)) := by
  obtain ⟨h1, h2, h3⟩ := h
  have e1 : a.rows = (qs.zip a.rows).map Prod.snd := by rw [List.map_snd_zip]; omega
  have e2 : (qs.zip a.rows).map Prod.fst = ((List.range S).map fun s => (T s).map fun t => (s, t)).flatten := by
    rw [List.map_fst_zip (by omega), hqs]
    rfl
  have e3 : (Adaptive.splitErr ((List.range S).map fun ii => (T ii).length) (qs.zip a.rows)).map (List.map Prod.fst)
      = (List.range S).map fun s => (T s).map fun t => (s, t) := by
    rw [← splitErr_map, e2]
    have := splitErr_flatten ((List.range S).map fun s => (T s).map fun t => (s, t))
    rw [List.map_map] at this
    refine Eq.trans ?_ this
    congr 1
    apply List.map_congr_left
    intro ii _
    simp
  obtain ⟨Z, hZ⟩ : ∃ Z, Z = Adaptive.splitErr ((List.range S).map fun ii => (T ii).length) (qs.zip a.rows) := ⟨_, rfl⟩
  have hZl : Z.length = S := by
    have := congrArg List.length e3
    simpa [← hZ] using this
  have hflat : Z.flatten = qs.zip a.rows := by
    rw [hZ]
    refine (Adaptive.C45_split _ _ ?_).1
    have := congrArg List.length e2
    rw [List.length_map] at this
    rw [this, List.length_flatten, List.map_map]
    congr 1
    apply List.map_congr_left
    intro ii _
    simp
  have hval : ∀ q ∈ qs.zip a.rows, ∀ c < w, q.2 c = f q.1.1 q.1.2 c := by
    intro q hq c hc
    obtain ⟨i, hi, rfl⟩ := List.mem_iff_getElem.1 hq
    have hi1 : i < qs.length := by simp at hi; omega
    have := h3 i hi1 c hc
    simpa [rows, List.getD_eq_getElem?_getD, hi1, show i < a.rows.length by omega] using this
  rw [e1, splitErr_map, ← hZ, List.map_map]
  refine ⟨by simp [hZl], fun ii hi => ?_⟩
  have hiZ : ii < Z.length := by omega
  have e4 : (Z[ii]).map Prod.fst = (T ii).map fun t => (ii, t) := by
    have := congrArg (fun l => l[ii]?) e3
    rw [← hZ] at this
    simpa [hiZ, hi] using this
  have hlen : (Z[ii]).length = (T ii).length := by
    have := congrArg List.length e4
    simpa using this
  refine ⟨⟨a.width, (Z[ii]).map Prod.snd⟩, by simp [hiZ], h1, by simpa using hlen, fun i hi' c hc => ?_⟩
  have hi2 : i < (Z[ii]).length := by omega
  have hfst : ((Z[ii])[i]).1 = (ii, arr (T ii) i) := by
    have := congrArg (fun l => l[i]?) e4
    simpa [hi2, hi', arr, List.getD_eq_getElem?_getD] using this
  have := hval ((Z[ii])[i]) (by
    rw [← hflat]
    exact List.mem_flatten.2 ⟨_, List.getElem_mem hiZ, List.getElem_mem hi2⟩) c hc
  rw [hfst] at this
  simpa [rows, hi2] using this

theorem getE_of {A : Type} {l : List A} {i : ℕ} {a : A} (h : l[i]? = some a) : getE l i = .ok a := by simp [getE, h]

theorem names_q : (qAndDersNames 2)[0]? = some "q" := by decide

/-- The errors from the dynamic errors and from the interpolation. -/
theorem mesh_of {scheme : String} (hs : scheme ∈ implemented) {n_q : ℕ} (hq : 1 ≤ n_q) {t0 tf : ℝ} {knots : List ℝ} {N : ℕ → ℕ}
    (hN : ∀ ii ≤ knots.length, minPoints scheme ≤ N ii) (elib : (d : ℕ) → Interp.Lib d Row) (lib : Lib) {Q W : ℕ → ℕ → ℝ[X]}
    {r : SegRes} {s : Segs} (r1 : r.res.scheme = scheme) (r7 : r.res.segs = some s)
    (hp : r.point_structure = (List.range (knots.length + 1)).map N)
    (k1 : s.n_segments = knots.length + 1) (k2 : s.t_knot_ext = knotsExt t0 tf knots) {F : Row → Row → Row}
    (hdyn : ∀ l, InstantsOk 0 (knots.length + 1) (some l) → ∃ errs res' a out,
      dynamicErrors elib lib r.res F "q" 2 2 none none 0 true (.lists l) = .ok (errs, res') ∧
      res' = { r.res with interpolations := some out, error := some errs } ∧
      Arrays.get errs "dyn_err_interp" = some a ∧
      Holds (segSamples t0 tf knots 0 (some l)).length n_q (fun i c => dynError (Q ((segSamples t0 tf knots 0 (some l)).getD i (0, 0)).1)
        (W ((segSamples t0 tf knots 0 (some l)).getD i (0, 0)).1) n_q F ((segSamples t0 tf knots 0 (some l)).getD i (0, 0)).2 c) a)
    (hint : ∀ l, InstantsOk 0 (knots.length + 1) (some l) → ∀ out errs, ∃ d lists,
      interpolation elib lib { r.res with interpolations := some out, error := some errs } 2 2 none none 0 false (.lists l)
        = .ok (⟨d, lists⟩, { r.res with interpolations := some out, error := some errs }) ∧
      ∃ f, SegLists 2 n_q t0 tf knots 0 (some l) f ⟨d, lists⟩ ∧ ∀ ii t, ∀ c < n_q, f 0 0 ii t c = (Q ii c).eval t) :
    MeshErrors scheme t0 tf knots N n_q Q W F elib lib r := by
  have hL : ∀ ii, ∃ L, ii ≤ knots.length → collPoints (N ii + 1) scheme = .ok L ∧ L.length = N ii + 1 := by
    intro ii
    by_cases h : ii ≤ knots.length
    · obtain ⟨L, h1, h2, -⟩ := C21_points hs (order := 2) (by norm_num) (N := N ii + 1) (by have := hN ii h; omega)
      exact ⟨L, fun _ => ⟨h1, h2⟩⟩
    · exact ⟨[], fun h' => absurd h' h⟩
  choose L hL using hL
  obtain ⟨T, hT⟩ : ∃ T : ℕ → List ℝ, T = fun ii => (L ii).map fun τ => tauToT τ (knot t0 tf knots ii) (knot t0 tf knots (ii + 1)) := ⟨_, rfl⟩
  have hTl : ∀ ii ≤ knots.length, (T ii).length = N ii + 1 := fun ii hi => by rw [hT]; simp [(hL ii hi).2]
  have hkn : ∀ ii ≤ knots.length + 1, s.t_knot_ext[ii]? = some (knot t0 tf knots ii) := by
    intro ii hi
    rw [k2, knot, List.getD_eq_getElem?_getD, List.getElem?_eq_getElem (by simp [knotsExt]; omega)]
    rfl
  have hpts : ∀ ii ≤ knots.length, (r.point_structure.map (· + 1))[ii]? = some (N ii + 1) := by
    intro ii hi
    rw [hp]
    simp [show ii < knots.length + 1 by omega]
  have ht : calcTestPointArr r = .ok ((List.range (knots.length + 1)).map T) := by
    unfold calcTestPointArr
    simp only [r7, need, bind, Except.bind, k1]
    apply Exc.mapM_eq
    intro ii hi
    have hi' : ii ≤ knots.length := by have := List.mem_range.1 hi; omega
    rw [getE_of (hkn ii (by omega)), getE_of (hkn (ii + 1) (by omega)), getE_of (hpts ii hi'), r1]
    simp only [(hL ii hi').1, lift, pure, Except.pure, hT]
  obtain ⟨Tl, hTL⟩ : ∃ Tl, Tl = (List.range (knots.length + 1)).map T := ⟨_, rfl⟩
  have hok : InstantsOk 0 (knots.length + 1) (some Tl) := by rw [hTL]; simp [InstantsOk]
  have hinst : ∀ ii ≤ knots.length, segInstants t0 tf knots 0 (some Tl) ii = T ii := by
    intro ii hi
    rw [hTL]
    simp [segInstants, partTimes, List.getD_eq_getElem?_getD, show ii < knots.length + 1 by omega]
  have hsamp : segSamples t0 tf knots 0 (some Tl) = samples false (knots.length + 1) T := by
    unfold segSamples samples
    simp only [Option.isNone_some]
    congr 1
    apply List.map_congr_left
    intro ii hi
    have := hinst ii (by have := List.mem_range.1 hi; omega)
    unfold segInstants at this
    rw [this]
  have hlens : (List.range s.n_segments).mapM (fun seg_ii => getE (r.point_structure.map (· + 1)) seg_ii)
      = .ok ((List.range (knots.length + 1)).map fun ii => (T ii).length) := by
    rw [k1]
    apply Exc.mapM_eq
    intro ii hi
    have hi' : ii ≤ knots.length := by have := List.mem_range.1 hi; omega
    rw [getE_of (hpts ii hi'), hTl ii hi']
  obtain ⟨errs, res', a, out, d1, d2, d3, d4⟩ := hdyn Tl hok
  have hsplit := split_holds hsamp (f := fun ii t c => dynError (Q ii) (W ii) n_q F t c) d4
  obtain ⟨el, hel⟩ : ∃ el, el = (Adaptive.splitErr ((List.range (knots.length + 1)).map fun ii => (T ii).length) a.rows).map
    fun l => (⟨a.width, l⟩ : Arr2) := ⟨_, rfl⟩
  rw [← hel] at hsplit
  have hne : Tl ≠ [] := by
    intro h; have := congrArg List.length h; rw [hTL] at this; simp at this
  refine ⟨T, fun ii hi => ⟨L ii, (hL ii hi).1, by rw [hT]⟩, el,
    ⟨res', r.point_structure, some Tl.flatten, some Tl, some el, none, none, none⟩, ?_, hsplit, rfl, by rw [hTL], ?_⟩
  · unfold analyzeResErr
    rw [ht, ← hTL]
    simp only [r7, need, bind, Except.bind, d1, d3, if_neg hne, hlens, pure, Except.pure, ← hel, if_true]
  obtain ⟨d, lists, i1, f, ⟨-, i2⟩, i3⟩ := hint Tl hok out errs
  obtain ⟨name, ql, n1, n2, n3⟩ := i2 0 0 (by norm_num)
  rw [names_q] at n1
  cases n1
  rw [show dName "q" 0 ++ "_list" = "q_list" by decide] at n2
  have hqm : ∀ ii, ∃ v, ii ≤ knots.length → (∃ b, ql[ii]? = some b ∧ absMax b = .ok v) ∧
      IsMaxAbs (T ii).length n_q (fun i c => (Q ii c).eval (arr (T ii) i)) v := by
    intro ii
    by_cases h : ii ≤ knots.length
    · obtain ⟨b, b1, b2⟩ := n3.2 ii (by omega)
      rw [hinst ii h] at b2
      obtain ⟨v, v1, v2⟩ := absMax_spec (n := (T ii).length) (w := n_q) (f := fun i c => (Q ii c).eval (arr (T ii) i))
        ⟨b2.1, b2.2.1, fun i hi c hc => by rw [b2.2.2 i hi c hc]; exact i3 ii _ c hc⟩ (by rw [hTl ii h]; omega) hq
      exact ⟨v, fun _ => ⟨⟨b, b1, v1⟩, v2⟩⟩
    · exact ⟨0, fun h' => absurd h' h⟩
  choose qm hqm using hqm
  have hem : ∀ ii, ∃ v, ii ≤ knots.length → (∃ b, el[ii]? = some b ∧ absMax b = .ok v) ∧
      IsMaxAbs (T ii).length n_q (fun i c => dynError (Q ii) (W ii) n_q F (arr (T ii) i) c) v := by
    intro ii
    by_cases h : ii ≤ knots.length
    · obtain ⟨b, b1, b2⟩ := hsplit.2 ii (by omega)
      obtain ⟨v, v1, v2⟩ := absMax_spec b2 (by rw [hTl ii h]; omega) hq
      exact ⟨v, fun _ => ⟨⟨b, b1, v1⟩, v2⟩⟩
    · exact ⟨0, fun h' => absurd h' h⟩
  choose em hem using hem
  have e1 : ql.mapM absMax = .ok ((List.range (knots.length + 1)).map qm) := by
    have e : ql = (List.range (knots.length + 1)).map fun ii => ql.getD ii ⟨0, []⟩ := by
      apply List.ext_getElem
      · simp [n3.1]
      · intro i h1 h2
        simp [List.getD_eq_getElem?_getD, h1]
    rw [e, List.mapM_map]
    apply Exc.mapM_eq
    intro ii hi
    obtain ⟨⟨b, b1, b2⟩, -⟩ := hqm ii (by have := List.mem_range.1 hi; omega)
    simp only [Function.comp, List.getD_eq_getElem?_getD, b1, Option.getD_some, b2]
  have e2 : (List.range s.n_segments).mapM (fun seg_ii => do absMax (← getE el seg_ii))
      = .ok ((List.range (knots.length + 1)).map em) := by
    rw [k1]
    apply Exc.mapM_eq
    intro ii hi
    obtain ⟨⟨b, b1, b2⟩, -⟩ := hem ii (by have := List.mem_range.1 hi; omega)
    simp only [getE_of b1, bind, Except.bind, b2]
  refine ⟨(List.range (knots.length + 1)).map fun ii => em ii / (1 + qm ii), ⟨res', r.point_structure, some Tl.flatten, some Tl, some el,
    some ((List.range (knots.length + 1)).map qm), some ((List.range (knots.length + 1)).map em),
    some ((List.range (knots.length + 1)).map fun ii => em ii / (1 + qm ii))⟩, ?_, rfl, rfl, by rw [d2], by simp, fun ii hi => ?_⟩
  · have e3 : quotient ((List.range (knots.length + 1)).map em) (((List.range (knots.length + 1)).map qm).map fun q => 1 + q)
        = .ok ((List.range (knots.length + 1)).map fun ii => em ii / (1 + qm ii)) := by
      unfold quotient
      rw [if_pos (by simp), List.map_map, List.zipWith_map, List.zipWith_self]
      rfl
    have e4 : res'.segs = some s := by rw [d2]; exact r7
    unfold maxErr
    rw [← d2] at i1
    simp only [e4, need, bind, Except.bind, i1, n2, e1, pure, Except.pure]
    simp only [bind, Except.bind] at e2
    rw [e2]
    simp only [e3]
  · exact ⟨em ii, qm ii, (hem ii hi).2, (hqm ii hi).2, by simp [show ii < knots.length + 1 by omega]⟩

/-! ## C133 -/

/-- C133 for bottom-up results in segments. -/
theorem C133_bu {scheme : String} (hs : scheme ∈ buImplemented) {n_q : ℕ} (hq : 1 ≤ n_q) {t0 tf : ℝ} (ht : t0 < tf) {knots : List ℝ}
    (hin : ∀ k ∈ knots, t0 < k ∧ k < tf) (hsort : knots.Pairwise (· < ·)) {N : ℕ → ℕ}
    (hN : ∀ ii ≤ knots.length, minPoints scheme ≤ N ii) (elib : (d : ℕ) → Interp.Lib d Row) (lib : Lib)
    {Q W : ℕ → ℕ → ℝ[X]} {w : ℕ} {r : SegRes} {s : Segs}
    (hQ : ∀ ii ≤ knots.length, ∀ j < n_q, (Q ii j).degree < (2 + N ii : ℕ))
    (r1 : r.res.scheme = scheme) (r2 : r.res.scheme_mode = "ph bottom-up pseudospectral") (r3 : r.res.solve_order = 2)
    (r4 : r.res.t.head? = some t0) (r5 : r.res.t.getLast? = some tf) (r6 : r.res.x.width = n_q * 2) (r7 : r.res.segs = some s)
    (r8 : r.point_structure = (List.range (knots.length + 1)).map N)
    (hd : SegData s (fun N => buCollPoints N scheme 2) t0 tf knots N w W)
    (hx : SegFeasible s (fun N => buCollPoints N scheme 2) t0 tf knots N 2 n_q Q) {F : Row → Row → Row} (hF : Reads (2 * n_q) F) :
    MeshErrors scheme t0 tf knots N n_q Q W F elib lib r := by
  refine mesh_of (bu_slice hs).1 hq hN elib lib r1 r7 r8 hd.count hd.t_knot_ext (fun l hl => ?_) fun l hl out errs => ?_
  · obtain ⟨errs, res', a, e1, e2, e3, -, out, e4⟩ := C122_bu hs (p := 2) (m := 2) (by norm_num) (by norm_num) (Or.inl rfl) hq ht hin hsort hN
      elib lib hl true hQ r1 r2 r3 r4 r5 r6 r7 hd hx hF (Or.inl rfl)
    refine ⟨errs, res', a, out, e1, e4, e2, e3.1, e3.2.1, fun i hi c hc => ?_⟩
    rw [e3.2.2 i hi c hc]
    simp only [dynError, motionOf, mul_one, Nat.add_one_sub_one]
  · obtain ⟨d, lists, d1, -, -, -, -, d6⟩ := C119_named hs (p := 2) (m := 2) (by norm_num) (by norm_num) (Or.inl rfl) hq ht hin hsort hN
      elib lib hl false hQ (res := { r.res with interpolations := some out, error := some errs }) r1 r2 r3 r4 r5 r6 r7 hd hx
    exact ⟨d, lists, d1, _, d6, fun ii t c _ => rfl⟩

/-- C133 for top-down results in segments. -/
theorem C133_td {scheme : String} (hs : scheme ∈ buImplemented) {n_q : ℕ} (hq : 1 ≤ n_q) {t0 tf : ℝ} (ht : t0 < tf) {knots : List ℝ}
    (hin : ∀ k ∈ knots, t0 < k ∧ k < tf) (hsort : knots.Pairwise (· < ·)) {N : ℕ → ℕ}
    (hN : ∀ ii ≤ knots.length, minPoints scheme ≤ N ii) (elib : (d : ℕ) → Interp.Lib d Row) (lib : Lib)
    {Q W : ℕ → ℕ → ℝ[X]} {w : ℕ} {r : SegRes} {s : Segs}
    (hQ : ∀ ii ≤ knots.length, ∀ j < n_q, (Q ii j).degree < (2 + N ii : ℕ))
    (r1 : r.res.scheme = scheme) (r2 : r.res.scheme_mode = "ph top-down pseudospectral")
    (r4 : r.res.t.head? = some t0) (r5 : r.res.t.getLast? = some tf) (r6 : r.res.x.width = n_q * 2) (r7 : r.res.segs = some s)
    (r8 : r.point_structure = (List.range (knots.length + 1)).map N)
    (hd : SegData s (fun N => buCollPoints N scheme 2) t0 tf knots N w W)
    (hx : SegConstr s t0 tf knots N 2 n_q Q) {F : Row → Row → Row} (hF : Reads (2 * n_q) F) :
    MeshErrors scheme t0 tf knots N n_q Q W F elib lib r := by
  refine mesh_of (bu_slice hs).1 hq hN elib lib r1 r7 r8 hd.count hd.t_knot_ext (fun l hl => ?_) fun l hl out errs => ?_
  · obtain ⟨errs, res', a, e1, e2, e3, -, out, e4⟩ := C122_td hs (p := 2) (m := 2) (by norm_num) (by norm_num) hq ht hin hsort hN
      elib lib hl true hQ r1 r2 r4 r5 r6 r7 hd hx hF (Or.inl rfl)
    refine ⟨errs, res', a, out, e1, e4, e2, e3.1, e3.2.1, fun i hi c hc => ?_⟩
    rw [e3.2.2 i hi c hc]
    simp only [dynError, motionOf, mul_one, Nat.add_one_sub_one]
  · obtain ⟨d, lists, d1, -, -, -, d6⟩ := C120 hs (order := 2) (m := 2) (by norm_num) (by norm_num) hq ht hin hsort hN
      elib lib (p := 2) (n_q := n_q) (by norm_num) (mul_comm 2 n_q) hl false hQ
      (res := { r.res with interpolations := some out, error := some errs }) r1 r2 r4 r5 r6 r7 hd hx
    refine ⟨d, lists, d1, _, d6, fun ii t c hc => ?_⟩
    simp [Nat.div_eq_of_lt hc, Nat.mod_eq_of_lt hc]

/-- C133 for node based results in segments with the columns `P`, of which the first `n_q` are the coordinates. Missing: the schemes of
`C121_refuted`. -/
theorem C133_node_partial {scheme : String} (hs : scheme ∈ implemented) (h2 : scheme ∉ gauss2)
    {n_s o : ℕ} (hso : o = 1 ∨ o = 2) (hns : 1 ≤ n_s) {t0 tf : ℝ} (ht : t0 < tf) {knots : List ℝ}
    (hin : ∀ k ∈ knots, t0 < k ∧ k < tf) (hsort : knots.Pairwise (· < ·)) {N : ℕ → ℕ}
    (hN : ∀ ii ≤ knots.length, minPoints scheme ≤ N ii) (elib : (d : ℕ) → Interp.Lib d Row) (lib : Lib)
    {n_q : ℕ} (hq : 1 ≤ n_q) (hpq : 2 * n_q = o * n_s) {P W : ℕ → ℕ → ℝ[X]} {w : ℕ} {r : SegRes} {s : Segs}
    (hP : ∀ ii ≤ knots.length, ∀ n, nColToNNodes scheme (N ii) = .ok n → ∀ c < o * n_s, (P ii c).degree < n)
    (r1 : r.res.scheme = scheme) (r2 : r.res.scheme_mode = "ph pseudospectral") (r3 : r.res.solve_order = o)
    (r4 : r.res.t.head? = some t0) (r5 : r.res.t.getLast? = some tf) (r6 : r.res.x.width = o * n_s) (r7 : r.res.segs = some s)
    (r8 : r.point_structure = (List.range (knots.length + 1)).map N)
    (r9 : s.n_q = n_s) (hd : SegData s (fun N => collPoints N scheme) t0 tf knots N w W)
    (hx : SegStates s (fun N => collPoints N scheme) t0 tf knots N 1 (o * n_s) P) {F : Row → Row → Row} (hF : Reads (2 * n_q) F) :
    MeshErrors scheme t0 tf knots N n_q P W F elib lib r := by
  refine mesh_of hs hq hN elib lib r1 r7 r8 hd.count hd.t_knot_ext (fun l hl => ?_) fun l hl out errs => ?_
  · obtain ⟨errs, res', e1, ⟨a, e2, e3⟩, -, -, d, lists, e4, -⟩ := C122_node_partial hs h2 hso hns ht hin hsort hN elib lib (p := 2) (n_q := n_q)
      (by norm_num) hq hpq 2 hl true hP r1 r2 r3 r4 r5 r6 r7 r9 hd hx hF (Or.inl rfl)
    refine ⟨errs, res', a, ⟨d, lists⟩, e1, e4, e2, e3.1, e3.2.1, fun i hi c hc => ?_⟩
    rw [e3.2.2 i hi c hc]
    have e : rows ((segSamples t0 tf knots 0 (some l)).map fun q c => (W q.1 c).eval q.2) i
        = fun c => (W ((segSamples t0 tf knots 0 (some l)).getD i (0, 0)).1 c).eval ((segSamples t0 tf knots 0 (some l)).getD i (0, 0)).2 := by
      funext c; simp [rows, hi]
    simp only [dynError, mul_one, Nat.add_one_sub_one, e]
    congr 2
  · obtain ⟨d, lists, d1, -, -, -, d6⟩ := C121_partial hs h2 hso hns ht hin hsort hN elib lib (p := 2) (n_q := n_q) (by norm_num) hpq 2 hl false hP
      (res := { r.res with interpolations := some out, error := some errs }) r1 r2 r3 r4 r5 r6 r7 r9 hd hx
    refine ⟨d, lists, d1, _, d6, fun ii t c hc => ?_⟩
    simp


/-- C133, what the test of `adaptive_refinement_system` means: when all relative errors are below `eps`, the dynamic error at every test instant of
every segment is below `eps` times one plus the largest coordinate there. -/
theorem C133_converged {scheme : String} {t0 tf : ℝ} {knots : List ℝ} {N : ℕ → ℕ} {n_q : ℕ} {Q W : ℕ → ℕ → ℝ[X]} {F : Row → Row → Row}
    {elib : (d : ℕ) → Interp.Lib d Row} {lib : Lib} {r r' r'' : SegRes} (h : MeshErrors scheme t0 tf knots N n_q Q W F elib lib r)
    {out : List (List ℝ) × List Arr2} {rel : List ℝ} (h1 : analyzeResErr elib lib r F true = .ok (out, r')) (h2 : maxErr elib lib r' = .ok (rel, r''))
    {eps : ℝ} (he : ∀ e ∈ rel, e < eps) {ii : ℕ} (hi : ii ≤ knots.length) :
    ∃ L q, collPoints (N ii + 1) scheme = .ok L ∧
      IsMaxAbs L.length n_q (fun i c => (Q ii c).eval (tauToT (arr L i) (knot t0 tf knots ii) (knot t0 tf knots (ii + 1)))) q ∧
      ∀ τ ∈ L, ∀ c < n_q, |dynError (Q ii) (W ii) n_q F (tauToT τ (knot t0 tf knots ii) (knot t0 tf knots (ii + 1))) c| < eps * (1 + q) := by
  obtain ⟨T, hT, errs, s', a1, -, -, -, rel', s'', b1, -, -, -, -, b3⟩ := h
  rw [h1] at a1
  obtain ⟨-, rfl⟩ := Prod.mk.injEq .. ▸ Except.ok.inj a1
  rw [h2] at b1
  obtain ⟨rfl, -⟩ := Prod.mk.injEq .. ▸ Except.ok.inj b1
  obtain ⟨L, l1, l2⟩ := hT ii hi
  obtain ⟨e, q, e1, e2, e3⟩ := b3 ii hi
  have hval : ∀ i < L.length, arr (T ii) i = tauToT (arr L i) (knot t0 tf knots ii) (knot t0 tf knots (ii + 1)) := by
    intro i hi
    rw [l2, arr_map _ _ hi]
  have hlen : (T ii).length = L.length := by rw [l2, List.length_map]
  have hq0 : 0 ≤ q := by
    obtain ⟨-, i, -, c, -, rfl⟩ := e2
    exact abs_nonneg _
  refine ⟨L, q, l1, ?_, fun τ hτ c hc => ?_⟩
  · obtain ⟨m1, i, hi', c, hc, m2⟩ := e2
    refine ⟨fun i hi' c hc => ?_, i, by omega, c, hc, ?_⟩
    · have := m1 i (by omega) c hc
      dsimp only at this ⊢
      rwa [hval i hi'] at this
    · rw [m2]
      dsimp only
      rw [hval i (by omega)]
  · obtain ⟨i, hi', rfl⟩ := List.mem_iff_getElem.1 hτ
    have h3 := e1.1 i (by omega) c hc
    dsimp only at h3
    rw [hval i hi', show arr L i = L[i] by simp [arr, hi']] at h3
    have h4 := he _ (List.mem_of_getElem? e3)
    rw [div_lt_iff₀ (by linarith)] at h4
    linarith

/-! ## C134 -/

/-- A bottom-up or top-down result in segments with the motions `Q ii` and the controls `W ii`. -/
def MotionIn (n_q : ℕ) (t0 tf : ℝ) (knots : List ℝ) (Q W : ℕ → ℕ → ℝ[X]) (res : Res) : Prop :=
  (∀ k ∈ knots, t0 < k ∧ k < tf) ∧ knots.Pairwise (· < ·) ∧ res.t.head? = some t0 ∧ res.t.getLast? = some tf ∧ res.x.width = n_q * 2 ∧
  ∃ (N : ℕ → ℕ) (w : ℕ) (s : Segs), res.segs = some s ∧ res.scheme ∈ buImplemented ∧
    (∀ ii ≤ knots.length, minPoints res.scheme ≤ N ii) ∧ (∀ ii ≤ knots.length, ∀ j < n_q, (Q ii j).degree < (2 + N ii : ℕ)) ∧
    SegData s (fun N => buCollPoints N res.scheme 2) t0 tf knots N w W ∧
    ((res.scheme_mode = "ph bottom-up pseudospectral" ∧ res.solve_order = 2 ∧
        SegFeasible s (fun N => buCollPoints N res.scheme 2) t0 tf knots N 2 n_q Q) ∨
      (res.scheme_mode = "ph top-down pseudospectral" ∧ SegConstr s t0 tf knots N 2 n_q Q))

/-- The trapezoidal rule for the absolute values `|e i|` at `n` instants with the distance `h`. -/
noncomputable def trapezoids (n : ℕ) (h : ℝ) (e : ℕ → ℝ) : ℝ := ∑ i ∈ Finset.range (n - 1), h * (|e i| + |e (i + 1)|) / 2

theorem motion_segErrors {n_q : ℕ} (hq : 1 ≤ n_q) {t0 tf : ℝ} (ht : t0 < tf) {knots : List ℝ} {Q W : ℕ → ℕ → ℝ[X]} {res : Res}
    (h : MotionIn n_q t0 tf knots Q W res) (elib : (d : ℕ) → Interp.Lib d Row) (lib : Lib) {F : Row → Row → Row} (hF : Reads (2 * n_q) F)
    {n : ℕ} (hn : 2 ≤ n) : SegErrors 2 n_q Q W (segSamples t0 tf knots n none) F true res
      (dynamicErrors elib lib res F "q" 2 2 none none n true .absent) := by
  obtain ⟨h1, h2, h3, h4, h5, N, w, s, h6, h7, h8, h9, h10, h11⟩ := h
  rcases h11 with ⟨a1, a2, a3⟩ | ⟨a1, a2⟩
  · exact C122_bu h7 (by norm_num) (by norm_num) (Or.inl rfl) hq ht h1 h2 h8 elib lib (given := none) hn true h9 rfl a1 a2 h3 h4 h5 h6 h10 a3 hF
      (Or.inl rfl)
  · exact C122_td h7 (by norm_num) (by norm_num) hq ht h1 h2 h8 elib lib (given := none) hn true h9 rfl a1 h3 h4 h5 h6 h10 a2 hF (Or.inl rfl)

theorem totalStateError_linspace {n w : ℕ} (hn : 2 ≤ n) {a : Arr2} {f : ℕ → ℕ → ℝ} (h : Holds n w f a) (x y : ℝ) :
    MeshErr.totalStateError (linspace x y n) a
      = .ok ((List.range w).map fun c => trapezoids n ((y - x) / ((n : ℝ) - 1)) fun i => f i c) := by
  obtain ⟨h1, h2, h3⟩ := h
  unfold MeshErr.totalStateError
  rw [h1]
  apply Exc.mapM_eq
  intro c hc
  have hl : (a.rows.map fun r => |r c|).length = (linspace x y n).length := by rw [linspace_length, List.length_map, h2]
  rw [NumTools.Props.trapz_same hl]
  dsimp only
  rw [linspace_length]
  congr 1
  unfold NumTools.Props.areas trapezoids
  apply Finset.sum_congr rfl
  intro i hi
  have hi' : i + 1 < n := by have := Finset.mem_range.1 hi; omega
  have hv : ∀ k < n, (a.rows.map fun r => |r c|).getD k 0 = |f k c| := by
    intro k hk
    rw [← h3 k hk c (List.mem_range.1 hc)]
    simp [rows, h2, hk]
  have ht : ∀ k < n, (linspace x y n).getD k 0 = x + (k : ℝ) * ((y - x) / ((n : ℝ) - 1)) := by
    intro k hk
    simp [linspace, if_neg (show ¬ n = 1 by omega), hk]
  rw [hv i (by omega), hv (i + 1) hi', ht i (by omega), ht (i + 1) hi']
  push_cast
  ring

theorem phRun_ok {elib : (d : ℕ) → Interp.Lib d Row} {lib : Lib} {run : List Case} {F : Row → Row → Row} {n : ℕ}
    {V : Case → List ℝ × List ℝ} (h : ∀ case ∈ run, (do
      let (errors, _) ← dynamicErrors elib lib case.res F "q" 2 2 none none n true .absent
      let dyn_err_2 ← need (Arrays.get errors "dyn_err_interp")
      let dyn_err_q ← need (Arrays.get errors "compat_err_1_interp")
      let tot_dyn_err_2 ← MeshErr.totalStateError (linspace 0 2 n) dyn_err_2
      let tot_dyn_err_q ← MeshErr.totalStateError (linspace 0 2 n) dyn_err_q
      return (tot_dyn_err_2, tot_dyn_err_q) : Except PsErr (List ℝ × List ℝ)) = .ok (V case)) :
    analyzePhRun elib lib run F n = .ok ⟨run.map (·.cost), run.map (·.cpudt), run.map (·.iter_count), run.map fun c => (V c).1,
      run.map fun c => (V c).2, run.map (·.n_coll_total)⟩ := by
  unfold analyzePhRun
  dsimp only
  rw [Exc.mapM_eq h]
  simp only [bind, Except.bind, pure, Except.pure, List.map_map]
  rfl

/-- C134, for every run of bottom-up and top-down results: the costs, times, iterations and numbers of points are copied in order; the
compatibility errors are zero; and the dynamic errors at the instants of the interpolation are added with the distance `2 / (n - 1)`. -/
theorem C134_sum {n_q : ℕ} (hq : 1 ≤ n_q) {t0 tf : ℝ} (ht : t0 < tf) (knots : Case → List ℝ) (Q W : Case → ℕ → ℕ → ℝ[X]) {run : List Case}
    (h : ∀ case ∈ run, MotionIn n_q t0 tf (knots case) (Q case) (W case) case.res) (elib : (d : ℕ) → Interp.Lib d Row) (lib : Lib)
    {F : Row → Row → Row} (hF : Reads (2 * n_q) F) {n : ℕ} (hn : 2 ≤ n) :
    ∃ out, analyzePhRun elib lib run F n = .ok out ∧ out.cost = run.map (·.cost) ∧ out.cpudt = run.map (·.cpudt) ∧
      out.iter_count = run.map (·.iter_count) ∧ out.N_arr = run.map (·.n_coll_total) ∧
      out.err_q_acum = run.map (fun _ => List.replicate n_q 0) ∧
      out.err_2_acum = run.map fun case => (List.range n_q).map fun c => trapezoids n (2 / ((n : ℝ) - 1)) fun i =>
        dynError (Q case ((segSamples t0 tf (knots case) n none).getD i (0, 0)).1)
          (W case ((segSamples t0 tf (knots case) n none).getD i (0, 0)).1) n_q F ((segSamples t0 tf (knots case) n none).getD i (0, 0)).2 c := by
  have hone : ∀ case ∈ run, (do
      let (errors, _) ← dynamicErrors elib lib case.res F "q" 2 2 none none n true .absent
      let dyn_err_2 ← need (Arrays.get errors "dyn_err_interp")
      let dyn_err_q ← need (Arrays.get errors "compat_err_1_interp")
      let tot_dyn_err_2 ← MeshErr.totalStateError (linspace 0 2 n) dyn_err_2
      let tot_dyn_err_q ← MeshErr.totalStateError (linspace 0 2 n) dyn_err_q
      return (tot_dyn_err_2, tot_dyn_err_q) : Except PsErr (List ℝ × List ℝ))
      = .ok ((List.range n_q).map fun c => trapezoids n (2 / ((n : ℝ) - 1)) fun i =>
        dynError (Q case ((segSamples t0 tf (knots case) n none).getD i (0, 0)).1)
          (W case ((segSamples t0 tf (knots case) n none).getD i (0, 0)).1) n_q F ((segSamples t0 tf (knots case) n none).getD i (0, 0)).2 c,
        List.replicate n_q 0) := by
    intro case hc
    obtain ⟨errs, res', a, e1, e2, e3, e4, -⟩ := motion_segErrors hq ht (h case hc) elib lib hF hn
    obtain ⟨b, b1, b2⟩ := e4 1 le_rfl (by norm_num)
    have hlen : (segSamples t0 tf (knots case) n none).length = n := by
      obtain ⟨k1, k2, -⟩ := h case hc
      exact (C119_times ht hn k1 k2).1
    rw [hlen] at e3 b2
    have t1 := totalStateError_linspace hn e3 0 2
    have t2 := totalStateError_linspace hn b2 0 2
    rw [show "compat_err_" ++ toString 1 ++ "_interp" = "compat_err_1_interp" by decide] at b1
    simp only [e1, bind, Except.bind, e2, b1, need, t1, t2, pure, Except.pure]
    congr 2
    · apply List.map_congr_left
      intro c _
      rw [sub_zero]
      congr 1
      funext i
      simp only [dynError, motionOf, mul_one, Nat.add_one_sub_one]
    · rw [List.eq_replicate_iff]
      refine ⟨by simp, fun x hx => ?_⟩
      obtain ⟨c, -, rfl⟩ := List.mem_map.1 hx
      simp [trapezoids]
  refine ⟨_, phRun_ok hone, rfl, rfl, rfl, rfl, rfl, rfl⟩


theorem segSamples_one {t0 tf : ℝ} {n i : ℕ} (hn : 2 ≤ n) (hi : i < n) :
    (segSamples t0 tf [] n none).getD i (0, 0) = (0, t0 + (i : ℝ) * ((tf - t0) / ((n : ℝ) - 1))) := by
  have e : segSamples t0 tf [] n none = (linspace t0 tf n).map fun t => (0, t) := by
    unfold segSamples samples
    simp [joinAll, Ph.joinSegments, partTimes, Ph.inLens, knot, knotsExt]
  rw [e]
  simp [linspace, if_neg (show ¬ n = 1 by omega), hi]

/-- C134, for results in one segment: the reported error is the integral, by the trapezoidal rule, of the absolute dynamic error over the interval
of the problem, times `2 / (tf - t0)`. -/
theorem C134_scaled {n_q : ℕ} (hq : 1 ≤ n_q) {t0 tf : ℝ} (ht : t0 < tf) (Q W : Case → ℕ → ℕ → ℝ[X]) {run : List Case}
    (h : ∀ case ∈ run, MotionIn n_q t0 tf [] (Q case) (W case) case.res) (elib : (d : ℕ) → Interp.Lib d Row) (lib : Lib)
    {F : Row → Row → Row} (hF : Reads (2 * n_q) F) {n : ℕ} (hn : 2 ≤ n) :
    ∃ out, analyzePhRun elib lib run F n = .ok out ∧
      out.err_2_acum = run.map fun case => (List.range n_q).map fun c => 2 / (tf - t0) *
        trapezoids n ((tf - t0) / ((n : ℝ) - 1)) fun i =>
          dynError (Q case 0) (W case 0) n_q F (t0 + (i : ℝ) * ((tf - t0) / ((n : ℝ) - 1))) c := by
  obtain ⟨out, h1, -, -, -, -, -, h2⟩ := C134_sum hq ht (fun _ => []) Q W h elib lib hF hn
  refine ⟨out, h1, ?_⟩
  rw [h2]
  apply List.map_congr_left
  intro case _
  apply List.map_congr_left
  intro c _
  have hne : tf - t0 ≠ 0 := by linarith
  unfold trapezoids
  rw [Finset.mul_sum]
  apply Finset.sum_congr rfl
  intro i hi
  have hi' : i + 1 < n := by have := Finset.mem_range.1 hi; omega
  dsimp only
  rw [segSamples_one hn (by omega), segSamples_one hn hi']
  have hn' : (n : ℝ) - 1 ≠ 0 := by
    have : (2 : ℝ) ≤ n := by exact_mod_cast hn
    linarith
  field_simp

/-- C134, the part that holds: for results in one segment with an interval of length 2. -/
theorem C134_partial {n_q : ℕ} (hq : 1 ≤ n_q) {t0 : ℝ} (Q W : Case → ℕ → ℕ → ℝ[X]) {run : List Case}
    (h : ∀ case ∈ run, MotionIn n_q t0 (t0 + 2) [] (Q case) (W case) case.res) (elib : (d : ℕ) → Interp.Lib d Row) (lib : Lib)
    {F : Row → Row → Row} (hF : Reads (2 * n_q) F) {n : ℕ} (hn : 2 ≤ n) :
    ∃ out, analyzePhRun elib lib run F n = .ok out ∧
      out.err_2_acum = run.map fun case => (List.range n_q).map fun c => trapezoids n (2 / ((n : ℝ) - 1)) fun i =>
          dynError (Q case 0) (W case 0) n_q F (t0 + (i : ℝ) * (2 / ((n : ℝ) - 1))) c := by
  obtain ⟨out, h1, h2⟩ := C134_scaled hq (by linarith) Q W h elib lib hF hn
  refine ⟨out, h1, ?_⟩
  rw [h2]
  simp

/-- Results in one segment, from 0 to 1, with the motion `t ^ 2`. -/
theorem one_segment : ∃ res : Res, MotionIn 1 0 1 [] (fun _ _ => X ^ 2) (fun _ _ => 0) res := by
  obtain ⟨coll, full, sl, c1, -, -, -, -, -, -, c8, -⟩ := C32_rows (scheme := "LG") (by decide) (order := 2) (N := 2) (by norm_num) (by decide)
  obtain ⟨s, -, h1, h2⟩ := seg_exists (points := fun N => buCollPoints N "LG" 2) (t0 := 0) (tf := 1) (knots := [])
    (N := fun _ => 2) (order := 2) (n_s := 1) (w := 1) (fun _ => X ^ 2) (fun _ => 0) (coll := fun _ => coll)
    (fun _ _ => c1) (fun _ _ => c8) (fun _ _ _ => by rw [degree_zero]; exact WithBot.bot_lt_coe _)
  refine ⟨{ scheme := "LG", scheme_mode := "ph bottom-up pseudospectral", solve_order := 2, x := ⟨2, []⟩, x_d := ⟨2, []⟩, u := ⟨1, []⟩,
            t := [0, 1], segs := some s }, by simp, List.Pairwise.nil, rfl, rfl, rfl, fun _ => 2, 1, s, rfl,
    (by decide : "LG" ∈ buImplemented), (by decide : ∀ ii ≤ 0, minPoints "LG" ≤ 2), fun _ _ _ _ => by rw [degree_X_pow]; norm_num, h1, Or.inl ⟨rfl, rfl, h2.x_col, h2.x_d_col, h2.x_knot, fun ii hi => ?_⟩⟩
  obtain ⟨r0, r1, e0, e1, -⟩ := h2.x_d_knot 0 (by simp)
  rcases Nat.lt_or_ge ii 1 with h | h
  · obtain rfl : ii = 0 := by omega
    exact ⟨r0, e0⟩
  · obtain rfl : ii = 1 := by simp at hi; omega
    exact ⟨r1, e1⟩

/-- C134 is false: a motion from 0 to 1 whose acceleration is 2 more than the dynamics all the time, so that the integral of the error is 2 with any
number of instants, is reported with 4. -/
theorem C134_refuted (elib : (d : ℕ) → Interp.Lib d Row) (lib : Lib) {n : ℕ} (hn : 2 ≤ n) :
    ∃ (case : Case) (out : Summary), MotionIn 1 0 1 [] (fun _ _ => X ^ 2) (fun _ _ => 0) case.res ∧
      analyzePhRun elib lib [case] (fun _ _ _ => 0) n = .ok out ∧ out.err_2_acum = [[4]] ∧
      (∀ t c, dynError (fun _ => X ^ 2) (fun _ => 0) 1 (fun _ _ _ => 0) t c = 2) ∧
      trapezoids n (1 / ((n : ℝ) - 1)) (fun i => dynError (fun _ => X ^ 2) (fun _ => 0) 1 (fun _ _ _ => 0) (i * (1 / ((n : ℝ) - 1))) 0) = 2 := by
  obtain ⟨res, hres⟩ := one_segment
  have herr : ∀ t c, dynError (fun _ => X ^ 2) (fun _ => 0) 1 (fun _ _ _ => 0) t c = 2 := by
    intro t c
    simp [dynError, Function.iterate_succ, derivative_pow]
  have hn' : (n : ℝ) - 1 ≠ 0 := by
    have : (2 : ℝ) ≤ n := by exact_mod_cast hn
    linarith
  have htr : ∀ e : ℕ → ℝ, (∀ i, e i = 2) → trapezoids n (1 / ((n : ℝ) - 1)) e = 2 := by
    intro e he
    simp only [trapezoids, he, Finset.sum_const, Finset.card_range, nsmul_eq_mul]
    rw [Nat.cast_sub (by omega)]
    push_cast
    rw [abs_of_pos (by norm_num : (0 : ℝ) < 2)]
    field_simp
    norm_num
  obtain ⟨out, h1, h2⟩ := C134_scaled (n_q := 1) le_rfl (t0 := 0) (tf := 1) one_pos (fun _ _ _ => X ^ 2) (fun _ _ _ => 0)
    (run := [⟨res, 0, 0, 0, 0⟩]) (by intro case hc; obtain rfl := List.mem_singleton.1 hc; exact hres) elib lib (F := fun _ _ _ => 0)
    (fun _ _ _ _ => rfl) hn
  refine ⟨⟨res, 0, 0, 0, 0⟩, out, hres, h1, ?_, herr, htr _ fun i => herr _ _⟩
  rw [h2]
  simp only [sub_zero, List.map_cons, List.map_nil, List.range_one]
  rw [htr _ fun i => herr _ _]
  norm_num

/-- A result that meets the hypotheses of C133. -/
example : ∃ (r : SegRes) (s : Segs), r.res.segs = some s ∧ r.point_structure = (List.range ([] : List ℝ).length.succ).map (fun _ => 2) ∧
    r.res.scheme ∈ buImplemented ∧ MotionIn 1 0 1 [] (fun _ _ => X ^ 2) (fun _ _ => 0) r.res := by
  obtain ⟨res, h⟩ := one_segment
  obtain ⟨-, -, -, -, -, N, w, s, h1, h2, -⟩ := id h
  exact ⟨⟨res, [2], none, none, none, none, none, none⟩, s, h1, rfl, h2, h⟩


end Chords.Props
