import Verif.Model.Digits
import Verif.Props.PsLin

/-! # C163: the times of the controls; C164: lists of nodes -/

namespace Chords.Digits
open Chords.Spec Chords.Points Chords.PsInterp Chords.Bary Chords.Props Polynomial

theorem bits_pos (n : ℕ) : 1 ≤ bits n := le_max_left _ _

theorem bits_of {n : ℕ} {k : ℤ} (h1 : (k : ℝ) - 1 / 2 ≤ ((n : ℝ) + 1) * 3.3219280948873626) (h2 : ((n : ℝ) + 1) * 3.3219280948873626 < k + 1 / 2) (hk : 1 ≤ k) :
    bits n = k.toNat := by
  have : round (((n : ℝ) + 1) * 3.3219280948873626) = k := by
    rw [round_eq, Int.floor_eq_iff]
    constructor <;> linarith
  unfold bits
  rw [this]
  omega

theorem bits_2 : bits 2 = 10 := by
  rw [bits_of (k := 10)] <;> first | rfl | norm_num

theorem bits_16 : bits 16 = 56 := by
  rw [bits_of (k := 56)] <;> first | rfl | norm_num

theorem evalf_zero (n : ℕ) : evalf n 0 = 0 := by simp [evalf]

/-- The rounding error. -/
theorem evalf_close (n : ℕ) (x : ℝ) : |evalf n x - x| ≤ |x| / 2 ^ bits n := by
  by_cases hx : x = 0
  · subst hx; simp [evalf]
  have hs : (0 : ℝ) < 2 ^ (Int.log 2 |x| + 1 - (bits n : ℤ)) := zpow_pos (by norm_num) _
  obtain ⟨s, hsd⟩ : ∃ s : ℝ, s = 2 ^ (Int.log 2 |x| + 1 - (bits n : ℤ)) := ⟨_, rfl⟩
  have e : evalf n x = s * round (x / s) := by simp only [evalf, hx, if_false, hsd]
  rw [← hsd] at hs
  have h1 : |(round (x / s) : ℝ) - x / s| ≤ 1 / 2 := by rw [abs_sub_comm]; exact abs_sub_round _
  have h2 : s * round (x / s) - x = s * ((round (x / s) : ℝ) - x / s) := by field_simp
  rw [e, h2, abs_mul, abs_of_pos hs]
  have h3 : (2 : ℝ) ^ Int.log 2 |x| ≤ |x| := by
    have := Int.zpow_log_le_self (b := 2) (by norm_num) (abs_pos.2 hx)
    simpa using this
  have h4 : s = 2 * 2 ^ Int.log 2 |x| / 2 ^ bits n := by
    rw [hsd, zpow_sub₀ (by norm_num), zpow_add₀ (by norm_num)]
    simp; ring
  have h5 : s * (1 / 2) = 2 ^ Int.log 2 |x| / 2 ^ bits n := by rw [h4]; ring
  calc s * |(round (x / s) : ℝ) - x / s| ≤ s * (1 / 2) := by gcongr
    _ = 2 ^ Int.log 2 |x| / 2 ^ bits n := h5
    _ ≤ |x| / 2 ^ bits n := by gcongr

/-- Two lists with the same length and close entries. -/
def Close (c : ℝ) (l l' : List ℝ) : Prop := List.Forall₂ (fun x x' => |x' - x| ≤ c * |x|) l l'

theorem Close.refl {c : ℝ} (hc : 0 ≤ c) (l : List ℝ) : Close c l l :=
  List.forall₂_same.2 fun x _ => by simp; positivity

theorem close_map (n : ℕ) (l : List ℝ) : Close (1 / 2 ^ bits n) l (l.map (evalf n)) := by
  unfold Close
  rw [List.forall₂_map_right_iff]
  exact List.forall₂_same.2 fun x _ => (evalf_close n x).trans (le_of_eq (by ring))

theorem Close.append {c : ℝ} {l l' m m' : List ℝ} (h : Close c l l') (h' : Close c m m') : Close c (l ++ m) (l' ++ m') :=
  List.rel_append h h'

theorem Close.negRev {c : ℝ} {l l' : List ℝ} (h : Close c l l') : Close c (negRev l) (negRev l') := by
  unfold Close Points.negRev
  rw [List.forall₂_map_left_iff, List.forall₂_map_right_iff]
  refine (List.forall₂_reverse_iff.2 h).imp fun x x' hx => ?_
  rw [abs_neg, ← abs_neg]
  simpa [sub_eq_add_neg, add_comm] using hx

/-- Both raise the same, or give close lists. -/
def Agree (c : ℝ) : Except Err (List ℝ) → Except Err (List ℝ) → Prop
  | .ok l, .ok l' => Close c l l'
  | .error e, .error e' => e' = e
  | _, _ => False

theorem points_close (N : ℕ) (scheme : String) (n order : ℕ) :
    Agree (1 / 2 ^ bits n) (collPoints N scheme order) (collPointsD evalf N scheme n order) := by
  have h1 : ∀ l : List ℝ, Close (1 / 2 ^ bits n) l l := Close.refl (by positivity)
  unfold collPoints collPointsD
  by_cases a1 : scheme ∈ ["LG", "LG_inv", "LG2"]
  · rw [if_pos a1, if_pos a1]; exact close_map n _
  rw [if_neg a1, if_neg a1]
  by_cases a2 : scheme = "LGR"
  · rw [if_pos a2, if_pos a2]; exact close_map n _
  rw [if_neg a2, if_neg a2]
  by_cases a3 : scheme = "LGR_inv"
  · rw [if_pos a3, if_pos a3]; exact (close_map n _).negRev
  rw [if_neg a3, if_neg a3]
  by_cases a4 : scheme ∈ ["LGL", "D2"]
  · rw [if_pos a4, if_pos a4]; exact ((h1 _).append (close_map n _)).append (h1 _)
  rw [if_neg a4, if_neg a4]
  by_cases a5 : scheme = "LGLm"
  · rw [if_pos a5, if_pos a5]
    simp only [Agree, LGLm, LGL, LGLmd, LGLd, pySlice_inner]
    simpa using close_map n _
  rw [if_neg a5, if_neg a5]
  by_cases a6 : scheme ∈ ["JG", "JG_inv", "JG2"]
  · rw [if_pos a6, if_pos a6]; exact close_map n _
  rw [if_neg a6, if_neg a6]
  by_cases a7 : scheme = "JGR"
  · rw [if_pos a7, if_pos a7]; exact (h1 _).append (close_map n _)
  rw [if_neg a7, if_neg a7]
  by_cases a8 : scheme = "JGR_inv"
  · rw [if_pos a8, if_pos a8]; exact (close_map n _).append (h1 _)
  rw [if_neg a8, if_neg a8]
  by_cases a9 : scheme = "JGL"
  · rw [if_pos a9, if_pos a9]; exact ((h1 _).append (close_map n _)).append (h1 _)
  rw [if_neg a9, if_neg a9]
  split_ifs <;> first | exact h1 _ | rfl

/-- C163, points: whatever the digits asked for, `coll_points` gives as many points, each with that relative precision, and it raises for the same schemes. -/
theorem C163_points (N : ℕ) (scheme : String) (n order : ℕ) :
    (∀ l, collPoints N scheme order = .ok l → ∃ l', collPointsD evalf N scheme n order = .ok l' ∧ l'.length = l.length ∧
      ∀ i < l.length, |arr l' i - arr l i| ≤ 1 / 2 ^ bits n * |arr l i|) ∧
    ∀ e, collPoints N scheme order = .error e → collPointsD evalf N scheme n order = .error e := by
  have key : ∀ {l l' : List ℝ}, Close (1 / 2 ^ bits n) l l' → l'.length = l.length ∧ ∀ i < l.length, |arr l' i - arr l i| ≤ 1 / 2 ^ bits n * |arr l i| := by
    intro l l' h
    have hl := List.Forall₂.length_eq h
    refine ⟨hl.symm, fun i hi => ?_⟩
    have := List.Forall₂.get h hi (hl ▸ hi)
    simpa [arr, List.getElem?_eq_getElem hi, List.getElem?_eq_getElem (hl ▸ hi : i < l'.length)] using this
  have main := points_close N scheme n order
  constructor
  · intro l hl
    rw [hl] at main
    cases hd : collPointsD evalf N scheme n order with
    | error e => rw [hd] at main; exact main.elim
    | ok l' => rw [hd] at main; exact ⟨l', rfl, key main⟩
  · intro e he
    rw [he] at main
    cases hd : collPointsD evalf N scheme n order with
    | error e' => rw [hd] at main; exact congrArg _ main
    | ok l' => rw [hd] at main; exact main.elim

/-- C163, sixteen digits: the points that all other functions use are those of Model/Points.lean but for one part in `2 ^ 56`. -/
theorem C163_sixteen {N : ℕ} {scheme : String} {order : ℕ} {l : List ℝ} (h : collPoints N scheme order = .ok l) :
    ∃ l', collPointsD evalf N scheme 16 order = .ok l' ∧ l'.length = l.length ∧ ∀ i < l.length, |arr l' i - arr l i| ≤ 1 / 2 ^ 56 * |arr l i| := by
  have := (C163_points N scheme 16 order).1 l h
  rwa [bits_16] at this

/-- The hypothesis of C163_sixteen holds. -/
example : collPoints 2 "LG" 2 = .ok (LG 2) := rfl

/-- C163, Chebyshev points do not depend on the digits. -/
theorem C163_chebyshev {scheme : String} (hs : scheme ∈ ["CG", "CG_inv", "CG2", "CGR", "CGR_inv", "CGL"]) (ev : ℕ → ℝ → ℝ) (N n order : ℕ) :
    collPointsD ev N scheme n order = collPoints N scheme order := by
  simp only [List.mem_cons, List.not_mem_nil, or_false] at hs
  rcases hs with rfl | rfl | rfl | rfl | rfl | rfl <;> simp [collPointsD, collPoints]

/-- Without rounding the points are those of Model/Points.lean. -/
theorem ideal_points (N : ℕ) (scheme : String) (n order : ℕ) : collPointsD (fun _ x => x) N scheme n order = collPoints N scheme order := by
  unfold collPoints collPointsD
  simp only [LGd, LGRd, LGLd, LGLmd, JGd, JGRd, JGRinvd, JGLd, List.map_id']
  rfl

/-- Without rounding `extend_u_array` is that of Model/PsInterp.lean. -/
theorem C163_ideal (uu : List Row) (scheme : String) (N order : ℕ) : extendUArrayD (fun _ x => x) uu scheme N order = extendUArray uu scheme N order := by
  simp only [extendUArrayD, extendUArray, ideal_points]

/-- C163, the part that holds: `extend_u_array` returns the controls that it should, at times that have as many digits as the order of the problem. -/
theorem C163_extend_partial {uu : List Row} {scheme : String} {N order : ℕ} {τs : List ℝ} {u' : List Row}
    (h : extendUArray uu scheme N order = .ok (τs, u')) :
    ∃ τs', extendUArrayD evalf uu scheme N order = .ok (τs', u') ∧ τs'.length = τs.length ∧ ∀ i < τs.length, |arr τs' i - arr τs i| ≤ 1 / 2 ^ bits order * |arr τs i| := by
  have key : ∀ {l l' : List ℝ}, Close (1 / 2 ^ bits order) l l' →
      l'.length = l.length ∧ ∀ i < l.length, |arr l' i - arr l i| ≤ 1 / 2 ^ bits order * |arr l i| := by
    intro l l' h
    have hl := List.Forall₂.length_eq h
    refine ⟨hl.symm, fun i hi => ?_⟩
    have := List.Forall₂.get h hi (hl ▸ hi)
    simpa [arr, List.getElem?_eq_getElem hi, List.getElem?_eq_getElem (hl ▸ hi : i < l'.length)] using this
  have h1 : ∀ l : List ℝ, Close (1 / 2 ^ bits order) l l := Close.refl (by positivity)
  have main := points_close N scheme order 2
  unfold extendUArray at h
  unfold extendUArrayD
  dsimp only at h ⊢
  cases hc : collPoints N scheme with
  | error e => rw [hc] at h; cases e <;> cases h
  | ok l =>
    cases hd : collPointsD evalf N scheme order with
    | error e => rw [hc, hd] at main; exact main.elim
    | ok l' =>
      rw [hc, hd] at main
      have main : Close (1 / 2 ^ bits order) l l' := main
      rw [hc] at h
      cases hf : baryExtreme scheme uu.length "u" "start" order with
      | error e => rw [hf] at h; cases e <;> cases h
      | ok f0 =>
        cases hg : baryExtreme scheme uu.length "u" "end" order with
        | error e => rw [hf, hg] at h; cases e <;> cases h
        | ok fe =>
          rw [hf, hg] at h
          simp only [PsInterp.lift, bind, Except.bind] at h ⊢
          split_ifs at h ⊢ with b1 b2 b3 b4
          · cases h; exact ⟨_, rfl, key (((h1 [-1]).append main).append (h1 [1]))⟩
          · cases h; exact ⟨_, rfl, key (main.append (h1 [1]))⟩
          · cases h; exact ⟨_, rfl, key ((h1 [-1]).append main)⟩
          · cases h; exact ⟨_, rfl, key main⟩

theorem LG_2 : LG 2 = [-Real.sqrt 3 / 3, Real.sqrt 3 / 3] := by
  have h3 : Real.sqrt 3 * Real.sqrt 3 = 3 := Real.mul_self_sqrt (by norm_num)
  have p3 : 0 < Real.sqrt 3 := Real.sqrt_pos.2 (by norm_num)
  unfold LG
  rw [realRoots_eq (m := 2) (s := fun i => if i = 0 then -Real.sqrt 3 / 3 else Real.sqrt 3 / 3) (legendre_threeTerm.deg 2) (legendre_threeTerm.ne_zero 2)]
  · rfl
  · intro i j hij hj
    have : i = 0 := by omega
    have : j = 1 := by omega
    subst_vars; simp; linarith
  · intro i hi
    have : i = 0 ∨ i = 1 := by omega
    rcases this with rfl | rfl <;> simp [legendre] <;> norm_num <;> nlinarith

theorem sqrt3_bounds : (0.57735 : ℝ) < Real.sqrt 3 / 3 ∧ Real.sqrt 3 / 3 < 0.57736 := by
  have h1 : (1.73205 : ℝ) < Real.sqrt 3 := Real.lt_sqrt_of_sq_lt (by norm_num)
  have h2 : Real.sqrt 3 < 1.73206 := (Real.sqrt_lt' (by norm_num)).2 (by norm_num)
  constructor <;> linarith

theorem evalf_sqrt3 : evalf 2 (Real.sqrt 3 / 3) = 591 / 1024 ∧ evalf 2 (-Real.sqrt 3 / 3) = -591 / 1024 := by
  obtain ⟨b1, b2⟩ := sqrt3_bounds
  have hlog : Int.log 2 (Real.sqrt 3 / 3) = -1 := by
    have hp : 0 < Real.sqrt 3 / 3 := by linarith
    have h1 := (Int.lt_zpow_iff_log_lt (R := ℝ) (b := 2) (by norm_num) (x := 0) hp).1 (by norm_num; linarith)
    have h2 := (Int.zpow_le_iff_le_log (R := ℝ) (b := 2) (by norm_num) (x := -1) hp).1 (by norm_num; linarith)
    omega
  have hp : 0 < Real.sqrt 3 / 3 := by linarith
  constructor
  · unfold evalf
    rw [if_neg hp.ne', abs_of_pos hp, hlog, bits_2]
    have : round (Real.sqrt 3 / 3 / 2 ^ (-1 + 1 - ((10 : ℕ) : ℤ))) = 591 := by
      rw [round_eq, Int.floor_eq_iff]
      norm_num
      constructor <;> linarith
    simp only [this]
    norm_num
  · unfold evalf
    rw [neg_div, if_neg (neg_ne_zero.2 hp.ne'), abs_neg, abs_of_pos hp, hlog, bits_2]
    have : round (-(Real.sqrt 3 / 3) / 2 ^ (-1 + 1 - ((10 : ℕ) : ℤ))) = -591 := by
      rw [round_eq, Int.floor_eq_iff]
      norm_num
      constructor <;> linarith
    simp only [this]
    norm_num

/-- C163 is false: with the default order the two controls of scheme "LG" are put at times that are wrong from the fourth digit on, although their collocation
points have sixteen. -/
theorem C163_refuted (u0 u1 : Row) : ∃ coll τs u', collPointsD evalf 2 "LG" = .ok coll ∧ extendUArrayD evalf [u0, u1] "LG" 2 = .ok (τs, u') ∧
    rows u' 1 = u0 ∧ rows u' 2 = u1 ∧ 0.0001 < |arr τs 2 - arr coll 1| ∧ 0.0001 < |arr τs 1 - arr coll 0| := by
  obtain ⟨coll, f, g, e1, e2, e3, -⟩ := C25_u (scheme := "LG") (by decide) (order := 2) (by norm_num) (N := 2) (by decide)
  obtain ⟨r1, r2⟩ := evalf_sqrt3
  obtain ⟨b1, b2⟩ := sqrt3_bounds
  have c1 := evalf_close 16 (Real.sqrt 3 / 3)
  have c2 := evalf_close 16 (-Real.sqrt 3 / 3)
  rw [bits_16] at c1 c2
  rw [neg_div, abs_neg] at c2
  have hp : 0 < Real.sqrt 3 / 3 := by linarith
  rw [abs_of_pos hp, abs_le] at c1 c2
  refine ⟨[evalf 16 (-Real.sqrt 3 / 3), evalf 16 (Real.sqrt 3 / 3)], [-1, -591 / 1024, 591 / 1024, 1], [onRows f [u0, u1], u0, u1, onRows g [u0, u1]],
    ?_, ?_, rfl, rfl, ?_, ?_⟩
  · simp [collPointsD, LGd, LG_2]
  · simp only [extendUArrayD, collPointsD, LGd, LG_2, List.map_cons, List.map_nil, r1, r2, List.length_cons, List.length_nil, Nat.reduceAdd, e2, e3, PsInterp.lift,
      bind, Except.bind, pure, Except.pure]
    simp
  · rw [lt_abs]; right
    simp only [arr, List.getD_cons_succ, List.getD_cons_zero]
    norm_num at c1 ⊢
    linarith [c1.1]
  · rw [lt_abs]; left
    simp only [arr, List.getD_cons_succ, List.getD_cons_zero]
    rw [neg_div (3 : ℝ) (Real.sqrt 3)]
    norm_num at c2 ⊢
    linarith [c2.2]

/-- C163 is false of interpolations too: the linear interpolation of the controls of `u = √3 τ`, at its own collocation time, is not the control there. -/
theorem C163_lin_refuted : ∃ coll u, collPoints 2 "LG" = .ok coll ∧ linU evalf [fun _ => -1, fun _ => 1] "LG" 2 [arr coll 1] = .ok [u] ∧ 1.0003 < u 0 := by
  obtain ⟨coll, f, g, e1, e2, e3, e5⟩ := C25_u (scheme := "LG") (by decide) (order := 2) (by norm_num) (N := 2) (by decide)
  have hc : coll = [-Real.sqrt 3 / 3, Real.sqrt 3 / 3] := by
    simp [collPoints, LG_2] at e1; exact e1.symm
  obtain ⟨r1, r2⟩ := evalf_sqrt3
  obtain ⟨b1, b2⟩ := sqrt3_bounds
  have h3 : Real.sqrt 3 * Real.sqrt 3 = 3 := Real.mul_self_sqrt (by norm_num)
  obtain ⟨uu, huu⟩ : ∃ uu : List Row, uu = [fun _ => -1, fun _ => 1] := ⟨_, rfl⟩
  obtain ⟨u1, u2⟩ := e5 (C (Real.sqrt 3) * X) (lt_of_le_of_lt (degree_C_mul_X_le _) (by norm_num)) (fun i => rows uu i 0) (by
    intro i hi
    subst hc; subst huu
    have : i = 0 ∨ i = 1 := by omega
    rcases this with rfl | rfl
    · simp [arr, rows]; nlinarith
    · simp [arr, rows]; nlinarith)
  have u2' : onRows g uu 0 = Real.sqrt 3 := by
    unfold onRows; rw [u2]; simp
  have e : linU evalf uu "LG" 2 [arr coll 1] =
      .ok [(fun _ => 1 : Row) + ((Real.sqrt 3 / 3 - 591 / 1024) / (1 - 591 / 1024)) • (onRows g uu - (fun _ => 1 : Row))] := by
    have hx : extendUArrayD evalf uu "LG" 2 = .ok ([-1, -591 / 1024, 591 / 1024, 1], [onRows f uu, fun _ => -1, fun _ => 1, onRows g uu]) := by
      have hl : uu.length = 2 := by rw [huu]; rfl
      simp only [extendUArrayD, collPointsD, LGd, LG_2, List.map_cons, List.map_nil, r1, r2, hl, e2, e3, PsInterp.lift, bind, Except.bind, pure, Except.pure]
      simp [huu]
    have t1 : ¬ Real.sqrt 3 / 3 < -1 := by linarith
    have t2 : ¬ Real.sqrt 3 / 3 < -591 / 1024 := by intro h; norm_num at h; linarith
    have t3 : ¬ Real.sqrt 3 / 3 < 591 / 1024 := by intro h; norm_num at h; linarith
    have t4 : Real.sqrt 3 / 3 < 1 := by linarith
    have ha : arr coll 1 = Real.sqrt 3 / 3 := by rw [hc]; rfl
    simp only [linU, hx, bind, Except.bind, ha, interp2d, List.length_cons, List.length_nil, if_true, List.mapM_cons, List.mapM_nil, Interp.interpAt,
      List.zip_cons_cons, List.zip_nil_left, Interp.npInterp, t1, t2, t3, t4, if_false, pure, Except.pure]
  subst huu
  refine ⟨coll, _, e1, e, ?_⟩
  have d0 : (0 : ℝ) < 1 - 591 / 1024 := by norm_num
  simp only [Pi.add_apply, Pi.smul_apply, Pi.sub_apply, u2', smul_eq_mul]
  have s1 : (1.73205 : ℝ) < Real.sqrt 3 := Real.lt_sqrt_of_sq_lt (by norm_num)
  rw [div_mul_eq_mul_div]
  have : (0.0003 : ℝ) < (Real.sqrt 3 / 3 - 591 / 1024) * (Real.sqrt 3 - 1) / (1 - 591 / 1024) := by
    rw [lt_div_iff₀ d0]
    norm_num
    nlinarith
  linarith

/-- The hypothesis of C163_extend_partial holds. -/
example (u0 u1 : Row) : ∃ τs u', extendUArray [u0, u1] "LG" 2 = .ok (τs, u') := by
  obtain ⟨coll, τs, u', -, h, -⟩ := C163_refuted u0 u1
  cases hh : extendUArray [u0, u1] "LG" 2 with
  | ok r => exact ⟨r.1, r.2, rfl⟩
  | error e =>
    obtain ⟨coll, f, g, e1, e2, e3, -⟩ := C25_u (scheme := "LG") (by decide) (order := 2) (by norm_num) (N := 2) (by decide)
    simp [extendUArray, e1, e2, e3, PsInterp.lift, bind, Except.bind, pure, Except.pure] at hh

/-- C164 holds of `LG2`: its points are the nodes of scheme "LG2", with the digits asked for. -/
theorem C164_LG2_partial (N n : ℕ) : ∃ l, nodePoints N "LG2" = .ok l ∧ (LG2d evalf N n).length = l.length ∧
    ∀ i < l.length, |arr (LG2d evalf N n) i - arr l i| ≤ 1 / 2 ^ bits n * |arr l i| := by
  refine ⟨[-1] ++ LG (N - 2) ++ [1], by simp [nodePoints, gaussLike, radauInv, radauLike, gaussInv, lobatoLike, gauss2, collPoints, bind, Except.bind, pure, Except.pure], ?_⟩
  have h1 : ∀ l : List ℝ, Close (1 / 2 ^ bits n) l l := Close.refl (by positivity)
  have h : Close (1 / 2 ^ bits n) ([-1] ++ LG (N - 2) ++ [1]) (LG2d evalf N n) := ((h1 _).append (close_map n _)).append (h1 _)
  have hl := List.Forall₂.length_eq h
  refine ⟨hl.symm, fun i hi => ?_⟩
  have := List.Forall₂.get h hi (hl ▸ hi)
  simpa only [arr, List.getD_eq_getElem?_getD, List.getElem?_eq_getElem hi, List.getElem?_eq_getElem (hl ▸ hi : i < (LG2d evalf N n).length), Option.getD_some,
    List.get_eq_getElem] using this

theorem jacobi_one (a : ℕ) : JG 1 a = [-((a : ℝ) - 1) / ((a : ℝ) + 1)] := by
  have ha : (-1 : ℝ) < (a : ℝ) - 1 + 1 := by have := Nat.cast_nonneg (α := ℝ) a; linarith
  have hb : (0 : ℝ) < (a : ℝ) + 1 := by positivity
  unfold JG
  rw [realRoots_eq (m := 1) (s := fun _ => -((a : ℝ) - 1) / ((a : ℝ) + 1))]
  · rfl
  · simp only [jacobi]
    rw [show ((a : ℝ) - 1 + 0) / 2 + 1 = ((a : ℝ) + 1) / 2 by ring]
    exact natDegree_linear (by positivity)
  · intro h
    have := congrArg (fun p => p.coeff 1) h
    simp [jacobi] at this
    linarith
  · intro i j h1 h2; omega
  · intro i hi
    simp [jacobi]
    field_simp
    ring

/-- C164 is false of `JG2`: with the default digits the point of `JG2(3)` is near `-15/17`; the node of scheme "JG2" is `-1/3`. -/
theorem C164_JG2_refuted : nodePoints 3 "JG2" = .ok [-1, -1 / 3, 1] ∧ ∃ x, JG2d evalf 3 16 = [-1, x, 1] ∧ |x + 15 / 17| ≤ 1 / 2 ^ 56 := by
  have h1 := jacobi_one 2
  have h2 := jacobi_one 16
  norm_num at h1 h2
  refine ⟨?_, evalf 16 (-(15 / 17)), ?_, ?_⟩
  · simp [nodePoints, gaussLike, radauInv, radauLike, gaussInv, lobatoLike, gauss2, collPoints, bind, Except.bind, pure, Except.pure, h1]
    norm_num
  · simp [JG2d, JGd, h2]
  · have := evalf_close 16 (-(15 / 17))
    rw [bits_16, sub_neg_eq_add] at this
    refine this.trans ?_
    rw [abs_neg, abs_of_pos (by norm_num)]
    norm_num

end Chords.Digits
