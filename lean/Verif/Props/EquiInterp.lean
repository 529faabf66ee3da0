import Verif.Props.DynErr
import Verif.Props.Interpolation

/-! # C116: the dictionary of `interpolation` for equispaced results -/

namespace Chords.Interp.Props
open Chords.Interp Chords.Spec

variable {d : ℕ} {W : Type} [AddCommGroup W] [Module ℝ W] {lib : Lib d W} {X Xd : List (Arr d)} {U : List W}
  {h : ℝ} {ts : List ℝ} {scheme u_scheme : String} {F : Option (Arr d → W → Arr d)} {s : Shape} {M dim : ℕ}

omit [AddCommGroup W] [Module ℝ W] in
theorem in_step {N : ℕ} (hh : 0 < h) {t : ℝ} (h0 : 0 ≤ t) (h2 : t < ((N : ℝ) - 1) * h) :
    ∃ n : ℕ, n + 1 < N ∧ n * h ≤ t ∧ t < (n + 1) * h := by
  have hf : 0 ≤ t / h := by positivity
  have f1 : (⌊t / h⌋₊ : ℝ) * h ≤ t := by rw [← le_div_iff₀ hh]; exact Nat.floor_le hf
  have f2 : t < (⌊t / h⌋₊ + 1) * h := by rw [← div_lt_iff₀ hh]; exact Nat.lt_floor_add_one _
  refine ⟨⌊t / h⌋₊, ?_, f1, f2⟩
  by_contra hc
  have hc' : (N : ℝ) ≤ (⌊t / h⌋₊ : ℝ) + 1 := by exact_mod_cast not_lt.1 hc
  nlinarith

/-- Every time between the first and the last sample gets a state. -/
theorem newpoint_total {sp : Params d W} (hs : SchemeIs sp.order scheme s M) (hd : d = M * dim) (hM : 0 < M)
    (hst : ∀ n, n + 1 < X.length → ∃ x xn xd xdn xdc, Step s X Xd sp n x xn xd xdn xdc) (hX : 2 ≤ X.length) (hh : 0 < h)
    {t : ℝ} (h0 : 0 ≤ t) (h1 : t ≤ ((X.length : ℝ) - 1) * h) : ∃ y, newpoint false X Xd h t scheme sp = .ok y := by
  by_cases hlast : t < ((X.length : ℝ) - 1) * h
  · obtain ⟨n, hn, n1, n2⟩ := in_step hh h0 hlast
    obtain ⟨x, xn, xd, xdn, xdc, st⟩ := hst n hn
    by_cases c1 : |t - n * h| < h * 1e-8
    · exact ⟨x, C14_sample st.x hh c1 _ _ _⟩
    by_cases c2 : |t - (n + 1 : ℕ) * h| < h * 1e-8
    · exact ⟨xn, C14_sample st.xn hh c2 _ _ _⟩
    rw [abs_of_nonneg (by linarith)] at c1
    rw [abs_of_neg (by push_cast; linarith)] at c2
    push_cast at c2
    obtain ⟨y, hy, _⟩ := C14_piece hs hd hM st hh (t := t) (by nlinarith) (by nlinarith)
    exact ⟨y, hy⟩
  · have hx := List.getElem?_eq_getElem (l := X) (i := X.length - 1) (by omega)
    refine ⟨_, C14_sample hx hh ?_ _ _ _⟩
    have : t = ((X.length : ℝ) - 1) * h := le_antisymm h1 (not_lt.1 hlast)
    rw [this, Nat.cast_sub (by omega)]
    simp; positivity

theorem newpointDer_total {sp : Params d W} (hs : SchemeIs sp.order scheme s M) (hd : d = M * dim) (hM : 0 < M)
    (hst : ∀ n, n + 1 < X.length → ∃ x xn xd xdn xdc, Step s X Xd sp n x xn xd xdn xdc) (hX : 2 ≤ X.length) (hh : 0 < h)
    {k : ℕ} (hk : s = .parab (2 / 5) → k = 1 ∨ k = 2)
    {t : ℝ} (h0 : 0 ≤ t) (h1 : t ≤ ((X.length : ℝ) - 1) * h) : ∃ y, newpointDer false X Xd h t scheme k sp = .ok y := by
  obtain ⟨m, hm2⟩ : ∃ m, X.length = m + 2 := ⟨X.length - 2, by omega⟩
  by_cases hlast : t ≤ ((X.length : ℝ) - 1 - 1e-8) * h
  · obtain ⟨n, hn, n1, n2⟩ := in_step hh h0 (N := X.length) (by nlinarith)
    obtain ⟨x, xn, xd, xdn, xdc, st⟩ := hst n hn
    obtain ⟨y, hy, _⟩ := C14_derivative hs hd hM st hk hh n1 n2 hlast
    exact ⟨y, hy⟩
  · obtain ⟨x, xn, xd, xdn, xdc, st⟩ := hst m (by omega)
    have hl : (X.length : ℝ) = m + 2 := by rw [hm2]; push_cast; ring
    obtain ⟨y, hy, _⟩ := C14_derivative_end hs hd hM st hm2 hk hh (t := t) (by
      rw [abs_lt]; rw [hl] at h1 hlast; constructor <;> nlinarith)
    exact ⟨y, hy⟩

/-- Parabolic controls exist between the first and the last sample. -/
theorem newpointU_total {sp : Params d W} {U_c : List W} (hsp : sp.u_c = some (some U_c)) (hc : U_c.length + 1 = U.length)
    (hu : u_scheme = "parab" ∨ u_scheme = "parab_j") (hX : 2 ≤ U.length) (hh : 0 < h)
    {t : ℝ} (h0 : 0 ≤ t) (h1 : t ≤ ((U.length : ℝ) - 1) * h) :
    ∃ y, newpointU lib false X Xd F scheme U h t u_scheme sp = .ok y := by
  by_cases hlast : t < ((U.length : ℝ) - 1) * h
  · obtain ⟨n, hn, n1, n2⟩ := in_step hh h0 hlast
    have e1 := List.getElem?_eq_getElem (l := U) (i := n) (by omega)
    have e2 := List.getElem?_eq_getElem (l := U) (i := n + 1) hn
    have e3 := List.getElem?_eq_getElem (l := U_c) (i := n) (by omega)
    by_cases c1 : |t - n * h| < h * 1e-8
    · exact ⟨_, C16_newpoint_sample _ _ _ _ _ _ e1 hh c1 _ _⟩
    by_cases c2 : |t - (n + 1 : ℕ) * h| < h * 1e-8
    · exact ⟨_, C16_newpoint_sample _ _ _ _ _ _ e2 hh c2 _ _⟩
    rw [abs_of_nonneg (by linarith)] at c1
    rw [abs_of_neg (by push_cast; linarith)] at c2
    push_cast at c2
    rcases hu with rfl | rfl
    · obtain ⟨B, C, hB, hC⟩ := C16_parabola_exists (θ := 1 / 2) hh (by norm_num) (by norm_num) U[n] U_c[n] U[n + 1]
      rw [show 1 / 2 * h = h / 2 by ring] at hB
      exact ⟨_, C16_newpoint_parab _ _ _ _ _ _ U[n] B C hh e1 (by rw [e2, hC]) (by rw [e3, hB]) (by nlinarith) (by nlinarith) hsp⟩
    · obtain ⟨B, C, hB, hC⟩ := C16_parabola_exists (θ := 2 / 5) hh (by norm_num) (by norm_num) U[n] U_c[n] U[n + 1]
      rw [show 2 / 5 * h = 2 * h / 5 by ring] at hB
      exact ⟨_, C16_newpoint_parab_j _ _ _ _ _ _ U[n] B C hh e1 (by rw [e2, hC]) (by rw [e3, hB]) (by nlinarith) (by nlinarith) hsp⟩
  · have hx := List.getElem?_eq_getElem (l := U) (i := U.length - 1) (by omega)
    refine ⟨_, C16_newpoint_sample _ _ _ _ _ _ hx hh ?_ _ _⟩
    have : t = ((U.length : ℝ) - 1) * h := le_antisymm h1 (not_lt.1 hlast)
    rw [this, Nat.cast_sub (by omega)]
    simp; positivity

/-- With the derivatives given, and the middle derivatives too if the scheme needs them, nothing is computed. -/
theorem missing_given {sp : Params d W} (hc : ¬ NeedsMiddle scheme ∨ sp.x_dot_c ≠ none) :
    missing false X U h F (some Xd) scheme u_scheme sp = .ok (Xd, sp) := by
  unfold missing
  simp only [givenXdot, bind, Except.bind, pure, Except.pure]
  rw [if_neg]
  rintro ⟨h1, h2, h3⟩
  rcases hc with hc | hc
  · exact hc ⟨h1, h2⟩
  · exact hc h3

theorem times_step (hh : 0 < h) {N : ℕ} (hN : 2 ≤ N) :
    ((times h N).getLastD 0 - (times h N).headD 0) / (((times h N).length : ℝ) - 1) = h := by
  obtain ⟨m, rfl⟩ : ∃ m, N = m + 2 := ⟨N - 2, by omega⟩
  have h1 : (times h (m + 2)).length = m + 2 := by simp [times]
  have h2 : (times h (m + 2)).getLastD 0 = (m + 1) * h := by
    simp [times, List.range_succ]
  have h3 : (times h (m + 2)).headD 0 = 0 := by
    simp [times, List.range_succ_eq_map]
  rw [h1, h2, h3]
  push_cast
  have : (m : ℝ) + 1 ≠ 0 := by positivity
  rw [show (m : ℝ) + 2 - 1 = m + 1 by ring, sub_zero, mul_div_cancel_left₀ _ this]

end Chords.Interp.Props

namespace Chords.Props
open Chords.Bary Chords.Problem Chords.Interp Chords.Interp.Props Chords.PsInterp Chords.BuTdInterp Chords.Spec Chords.DynErr Chords.Interpolation
open Chords.Ph (linspace)

/-- The data of a result of an equispaced problem from time `t0` to `tf`: `N` samples of states of `M * dim` numbers, and
one middle value for each step if the scheme has inner points. -/
structure EquiRes (res : Res) (N M dim : ℕ) (t0 tf : ℝ) : Prop where
  mode : res.scheme_mode = "equispaced"
  first : res.t.head? = some t0
  last : res.t.getLast? = some tf
  count : res.t.length = N
  width : res.x.width = M * dim
  x : res.x.rows.length = N
  x_d : res.x_d.rows.length = N
  u : res.u.rows.length = N
  centre : pyIn "hs" res.scheme = true → ∃ x_c u_c x_d_c, res.x_c = some x_c ∧ res.u_c = some u_c ∧ res.x_d_c = some x_d_c ∧
    u_c.rows.length + 1 = N ∧ x_d_c.rows.length + 1 = N

/-- `c j` is a motion of coordinate `j` with the shape that the scheme promises on step `n`, from the sample `n` and the
derivatives at both ends and at the inner point. -/
def OnStep (res : Res) (s : Shape) (M dim : ℕ) (h : ℝ) (n : ℕ) (c : ℕ → ℕ → ℝ → ℝ) : Prop :=
  ∀ j < dim, StepMotion s M (fun q => rows res.x.rows n (dim * q + j)) (rows res.x_d.rows n (dim * (M - 1) + j))
    (rows (res.x_d_c.getD ⟨0, []⟩).rows n (dim * (M - 1) + j)) (rows res.x_d.rows (n + 1) (dim * (M - 1) + j)) h (c j)

theorem coord_ofRow {d i : ℕ} (r : Row) (h : i < d) : coord (ofRow r : Arr d) i = r i := by
  simp [coord, ofRow, h]

theorem rows_of {l : List Row} {i : ℕ} {r : Row} (h : l[i]? = some r) : rows l i = r := by
  funext c
  simp [rows, List.getD_eq_getElem?_getD, h]

theorem holds_width {n w w' : ℕ} {g : ℕ → ℕ → ℝ} {a : Arr2} (h : Holds n w g a) (e : w = w') : Holds n w' g a := e ▸ h

theorem map_get {d : ℕ} {l : List Row} {n N : ℕ} (hl : l.length = N) (hn : n < N) :
    (l.map (ofRow : Row → Arr d))[n]? = some (ofRow (rows l n)) := by
  have h := List.getElem?_eq_getElem (l := l) (i := n) (by omega)
  rw [List.getElem?_map, h, rows_of h]
  rfl

theorem stepMotion_congr {s : Shape} {M : ℕ} {x x' : ℕ → ℝ} (hx : ∀ q < M, x q = x' q) {a ac an h : ℝ} {c : ℕ → ℝ → ℝ}
    (H : StepMotion s M x a ac an h c) : StepMotion s M x' a ac an h c := by
  cases s with
  | line => exact { H with start := fun p hp => (LinearMotion.start H p hp).trans (hx p hp) }
  | parab θ => exact { H with start := fun p hp => (ParabolicMotion.start H p hp).trans (hx p hp) }

theorem equi_col_lt {M dim q j : ℕ} (hq : q < M) (hj : j < dim) : dim * q + j < M * dim := by
  nlinarith [Nat.mul_le_mul_left dim hq]

theorem onStep_curve {res : Res} {d : ℕ} {s : Shape} {M dim : ℕ} (hd : d = M * dim) (hM : 0 < M) {h : ℝ} {n k : ℕ}
    {c : ℕ → ℕ → ℝ → ℝ} (hc : OnStep res s M dim h n c) {τ : ℝ} {y : Arr d}
    (hy : OnCurve s M dim (ofRow (rows res.x.rows n)) (ofRow (rows res.x_d.rows n)) (ofRow (rows res.x_d.rows (n + 1)))
      (ofRow (rows (res.x_d_c.getD ⟨0, []⟩).rows n)) h k τ y) {q j : ℕ} (hq : q < M) (hj : j < dim) :
    coord y (dim * q + j) = c j (q + k) τ := by
  subst hd
  refine hy q j hq hj _ ?_
  have hl := equi_col_lt (M := M) (q := M - 1) (j := j) (by omega) hj
  rw [coord_ofRow _ hl, coord_ofRow _ hl, coord_ofRow _ hl]
  exact stepMotion_congr (fun q hq => (coord_ofRow _ (equi_col_lt hq hj)).symm) (hc j hj)

/-- The values of the dictionary on the steps, `g` for the states and their derivatives and `us` for the controls. -/
structure OnSteps (res : Res) (s : Shape) (N M dim p : ℕ) (tf h : ℝ) (ts : List ℝ) (g : ℕ → ℕ → ℕ → ℝ) (us : List Row) :
    Prop where
  /-- On a step, all the derivatives are those of the motion of that step. -/
  inside : ∀ (i n : ℕ) (θ : ℝ) c, ts[i]? = some ((n + θ) * h) → n + 1 < N → θ = 0 ∨ 1e-8 ≤ θ ∧ θ ≤ 1 - 1e-8 →
    OnStep res s M dim h n c → ∀ ii ≤ p, ∀ q < M, ∀ j < dim, g ii i (dim * q + j) = c j (q + ii) (θ * h)
  /-- At the end, the state is the last sample, and the derivatives are those of the motion of the last step. -/
  finish : ∀ (i n : ℕ) c, ts[i]? = some tf → N = n + 2 → OnStep res s M dim h n c →
    (∀ col < M * dim, g 0 i col = rows res.x.rows (n + 1) col) ∧
    ∀ ii, 1 ≤ ii → ii ≤ p → ∀ q < M, ∀ j < dim, g ii i (dim * q + j) = c j (q + ii) h
  count : us.length = ts.length
  /-- Linear controls for the schemes without "parab" in their names. -/
  lin : pyIn "parab" res.scheme = false → ∀ (i n : ℕ) (θ : ℝ), ts[i]? = some ((n + θ) * h) → n + 1 < N → 0 ≤ θ → θ < 1 →
    ∀ col, rows us i col = (1 - θ) * rows res.u.rows n col + θ * rows res.u.rows (n + 1) col
  /-- Parabolic controls for the others: through the three controls of the step, the middle one at the inner point. -/
  parab : pyIn "parab" res.scheme = true → ∀ m, s = .parab m → ∀ (i n : ℕ) (θ : ℝ), ts[i]? = some ((n + θ) * h) → n + 1 < N →
    θ = 0 ∨ 1e-8 ≤ θ ∧ θ ≤ 1 - 1e-8 → ∀ (A B C : Row), rows res.u.rows n = A →
    rows (res.u_c.getD ⟨0, []⟩).rows n = A + (m * h) • B + (m * h) ^ 2 • C → rows res.u.rows (n + 1) = A + h • B + h ^ 2 • C →
    rows us i = A + (θ * h) • B + (θ * h) ^ 2 • C
  /-- The last control at the end. -/
  u_end : ∀ i n : ℕ, ts[i]? = some tf → N = n + 1 → rows us i = rows res.u.rows n

theorem equiDerivs_ok {d : ℕ} {lib : Interp.Lib d Row} {X : List (Arr d)} {U : List Row} {h : ℝ} {ts : List ℝ}
    {Xd : List (Arr d)} {scheme : String} {sp : Params d Row} {v : ℕ → List (Arr d)} (d0 : Arrays) : ∀ k,
    (∀ jj, 1 ≤ jj → jj ≤ k → interpolatedDerivative lib false X U h ts none (some Xd) scheme jj (some sp) = .ok (v jj, some sp)) →
    ∃ d', equiDerivs lib X U h ts Xd scheme d0 (some sp) k = .ok (d', some sp) ∧
      (∀ jj, 1 ≤ jj → jj ≤ k → d'.get (dName "x" jj) = some (toArr2 (v jj))) ∧
      ∀ key, (∀ jj, 1 ≤ jj → key ≠ dName "x" jj) → d'.get key = d0.get key := by
  intro k
  induction k with
  | zero => intro _; exact ⟨d0, rfl, fun jj h1 h2 => absurd h2 (by omega), fun _ _ => rfl⟩
  | succ k ih =>
    intro hk
    obtain ⟨d', e1, e2, e3⟩ := ih (fun jj h1 h2 => hk jj h1 (by omega))
    refine ⟨d'.set (dName "x" (k + 1)) (toArr2 (v (k + 1))), ?_, fun jj h1 h2 => ?_, fun key hkey => ?_⟩
    · simp only [equiDerivs, e1, hk (k + 1) (by omega) le_rfl, liftP, bind, Except.bind, pure, Except.pure]
    · rw [get_set]
      by_cases e : jj = k + 1
      · subst e; rw [if_pos rfl]
      · rw [if_neg, e2 jj h1 (by omega)]
        intro e'
        exact e (dName_inj x_plain x_plain e').2
    · rw [get_set, if_neg (hkey _ (by omega)), e3 key hkey]

/-- What `interpolation` computes for a result of an equispaced problem, with any scheme and default options: the entries
of the dictionary are the motions of the steps, their derivatives, and the linear or parabolic controls, at the requested
instants, counted from the start of the trajectory. -/
theorem equi_local {res : Res} {s : Shape} {N M dim : ℕ} (hs : SchemeIs (some res.solve_order) res.scheme s M) (hM : 0 < M)
    (hN : 2 ≤ N) {t0 tf : ℝ} (htf : t0 < tf) (hr : EquiRes res N M dim t0 tf) {p n_q : ℕ} (hp : 1 ≤ p) (hpq : p * n_q = M * dim)
    (hj : s = .parab (2 / 5) → p ≤ 2) (elib : (d : ℕ) → Interp.Lib d Row) (lib : PsInterp.Lib) (m n : ℕ)
    (given : Option (List ℝ)) (hne : instants t0 tf n given ≠ [])
    (hin : ∀ t ∈ instants t0 tf n given, 0 ≤ t ∧ t ≤ tf - t0) (save : Bool) :
    ∃ d g us, interpolation elib lib res p m none none n save (asGiven given)
        = .ok ({ arrs := d }, if save then { res with interpolations := some { arrs := d } } else res) ∧
      Distributed p (instants t0 tf n given).length n_q g d ∧ d.get "u" = some ⟨res.u.width, us⟩ ∧
      d.get "t" = some (column (instants t0 tf n given)) ∧
      OnSteps res s N M dim p (tf - t0) ((tf - t0) / ((N : ℝ) - 1)) (instants t0 tf n given) g us := by
  obtain ⟨ts, hts⟩ : ∃ ts, ts = instants t0 tf n given := ⟨_, rfl⟩
  rw [← hts] at hne hin ⊢
  obtain ⟨T, hT⟩ : ∃ T, T = tf - t0 := ⟨_, rfl⟩
  rw [← hT] at hin ⊢
  replace htf : 0 < T := by rw [hT]; linarith
  obtain ⟨h, hh⟩ : ∃ h, h = T / ((N : ℝ) - 1) := ⟨_, rfl⟩
  rw [← hh]
  have hlen : (2 : ℝ) ≤ N := by exact_mod_cast hN
  have hpos : (0 : ℝ) < (N : ℝ) - 1 := by linarith
  have hh0 : 0 < h := by rw [hh]; positivity
  have hend : ((N : ℝ) - 1) * h = T := by rw [hh]; field_simp
  -- the dictionary
  obtain ⟨sp, e0, ho, hmid, huc⟩ : ∃ sp : Params res.x.width Row, equiParams res = .ok sp ∧
      SchemeIs sp.order res.scheme s M ∧
      (s = .line ∧ ¬ NeedsMiddle res.scheme ∨
        ∃ x_d_c, res.x_d_c = some x_d_c ∧ x_d_c.rows.length + 1 = N ∧ sp.x_dot_c = some (x_d_c.rows.map ofRow)) ∧
      (pyIn "parab" res.scheme = true → ∃ u_c, res.u_c = some u_c ∧ u_c.rows.length + 1 = N ∧ sp.u_c = some (some u_c.rows)) := by
    have hc := hr.centre
    generalize hS : res.scheme = S at hs hc
    cases hs with
    | trapz =>
      exact ⟨_, by simp only [equiParams, hS]; rfl, .trapz, .inl ⟨rfl, by unfold NeedsMiddle; decide⟩, fun h => absurd h (by decide)⟩
    | trapz_mod =>
      exact ⟨_, by simp only [equiParams, hS]; rfl, .trapz_mod, .inl ⟨rfl, by unfold NeedsMiddle; decide⟩, fun h => absurd h (by decide)⟩
    | trapz_n _ e =>
      exact ⟨_, by simp only [equiParams, hS]; rfl, .trapz_n _ e, .inl ⟨rfl, by unfold NeedsMiddle; decide⟩, fun h => absurd h (by decide)⟩
    | hs =>
      obtain ⟨x_c, u_c, x_d_c, c1, c2, c3, c4, c5⟩ := hc (by decide)
      exact ⟨_, by simp only [equiParams, hS, c1, c2, c3]; rfl, .hs, .inr ⟨_, c3, c5, rfl⟩, fun _ => ⟨_, c2, c4, rfl⟩⟩
    | hs_parab =>
      obtain ⟨x_c, u_c, x_d_c, c1, c2, c3, c4, c5⟩ := hc (by decide)
      exact ⟨_, by simp only [equiParams, hS, c1, c2, c3]; rfl, .hs_parab, .inr ⟨_, c3, c5, rfl⟩, fun _ => ⟨_, c2, c4, rfl⟩⟩
    | hs_mod =>
      obtain ⟨x_c, u_c, x_d_c, c1, c2, c3, c4, c5⟩ := hc (by decide)
      exact ⟨_, by simp only [equiParams, hS, c1, c2, c3]; rfl, .hs_mod, .inr ⟨_, c3, c5, rfl⟩, fun _ => ⟨_, c2, c4, rfl⟩⟩
    | hs_mod_parab =>
      obtain ⟨x_c, u_c, x_d_c, c1, c2, c3, c4, c5⟩ := hc (by decide)
      exact ⟨_, by simp only [equiParams, hS, c1, c2, c3]; rfl, .hs_mod_parab, .inr ⟨_, c3, c5, rfl⟩, fun _ => ⟨_, c2, c4, rfl⟩⟩
    | hsn _ e =>
      obtain ⟨x_c, u_c, x_d_c, c1, c2, c3, c4, c5⟩ := hc (by decide)
      exact ⟨_, by simp only [equiParams, hS, c1, c2, c3]; rfl, .hsn _ e, .inr ⟨_, c3, c5, rfl⟩, fun _ => ⟨_, c2, c4, rfl⟩⟩
    | hsn_parab _ e =>
      obtain ⟨x_c, u_c, x_d_c, c1, c2, c3, c4, c5⟩ := hc (by decide)
      exact ⟨_, by simp only [equiParams, hS, c1, c2, c3]; rfl, .hsn_parab _ e, .inr ⟨_, c3, c5, rfl⟩, fun _ => ⟨_, c2, c4, rfl⟩⟩
    | hsj =>
      obtain ⟨x_c, u_c, x_d_c, c1, c2, c3, c4, c5⟩ := hc (by decide)
      exact ⟨_, by simp only [equiParams, hS, c1, c2, c3]; rfl, .hsj, .inr ⟨_, c3, c5, rfl⟩, fun _ => ⟨_, c2, c4, rfl⟩⟩
    | hsj_parab =>
      obtain ⟨x_c, u_c, x_d_c, c1, c2, c3, c4, c5⟩ := hc (by decide)
      exact ⟨_, by simp only [equiParams, hS, c1, c2, c3]; rfl, .hsj_parab, .inr ⟨_, c3, c5, rfl⟩, fun _ => ⟨_, c2, c4, rfl⟩⟩
  have hd : res.x.width = M * dim := hr.width
  obtain ⟨X, hX⟩ : ∃ X : List (Arr res.x.width), X = res.x.rows.map ofRow := ⟨_, rfl⟩
  obtain ⟨Xd, hXd⟩ : ∃ Xd : List (Arr res.x.width), Xd = res.x_d.rows.map ofRow := ⟨_, rfl⟩
  have hXl : X.length = N := by rw [hX, List.length_map, hr.x]
  have hUl : res.u.rows.length = X.length := by rw [hr.u, hXl]
  have hstep : ∀ n, n + 1 < N → Step s X Xd sp n (ofRow (rows res.x.rows n)) (ofRow (rows res.x.rows (n + 1)))
      (ofRow (rows res.x_d.rows n)) (ofRow (rows res.x_d.rows (n + 1))) (ofRow (rows (res.x_d_c.getD ⟨0, []⟩).rows n)) := by
    intro n hn
    refine ⟨?_, ?_, ?_, ?_, ?_⟩
    · rw [hX]; exact map_get hr.x (by omega)
    · rw [hX]; exact map_get hr.x hn
    · rw [hXd]; exact map_get hr.x_d (by omega)
    · rw [hXd]; exact map_get hr.x_d hn
    · rcases hmid with ⟨h, -⟩ | ⟨x_d_c, h1, h2, h3⟩
      · exact .inl h
      · refine .inr ⟨_, h3, ?_⟩
        rw [h1]
        exact map_get rfl (show n < x_d_c.rows.length by omega)
  have hmiss : ∀ us, missing false X res.u.rows h none (some Xd) res.scheme us sp = .ok (Xd, sp) := by
    intro us
    apply missing_given
    rcases hmid with ⟨-, h⟩ | ⟨_, -, -, h⟩
    · exact .inl h
    · exact .inr (by rw [h]; simp)
  have hsup : res.scheme ∈ supportedSchemes := by
    generalize res.scheme = S at hs
    cases hs <;> decide
  have hsc : res.scheme ≠ "hs_scipy" := by
    generalize res.scheme = S at hs
    cases hs <;> decide
  obtain ⟨t, ht⟩ : ∃ t, ts.getLast? = some t := ⟨_, List.getLast?_eq_some_getLast hne⟩
  have hin' : ∀ t ∈ ts, 0 ≤ t ∧ t ≤ ((X.length : ℝ) - 1) * h := by rw [hXl, hend]; exact hin
  have hprep := prepare_ok hUl ht (by rintro rfl; simp at hXl; omega) hh0 (hin' t (List.mem_of_mem_getLast? ht)).2
  have hX2 : 2 ≤ X.length := by omega
  have hst : ∀ n, n + 1 < X.length → ∃ x xn xd xdn xdc, Step s X Xd sp n x xn xd xdn xdc :=
    fun n hn => ⟨_, _, _, _, _, hstep n (by omega)⟩
  -- the states
  obtain ⟨xs, hxs⟩ := mapM_total (l := ts) (f := fun t => newpoint false X Xd h t res.scheme sp)
    (fun t ht => newpoint_total ho hd hM hst hX2 hh0 (hin' t ht).1 (hin' t ht).2)
  -- the derivatives
  have hk : ∀ k, 1 ≤ k → k ≤ p → s = .parab (2 / 5) → k = 1 ∨ k = 2 := by
    intro k h1 h2 h3
    have := hj h3
    omega
  have hvs : ∀ k, ∃ v, 1 ≤ k → k ≤ p → ts.mapM (fun t => newpointDer false X Xd h t res.scheme k sp) = .ok v := by
    intro k
    by_cases hk' : 1 ≤ k ∧ k ≤ p
    · obtain ⟨v, hv⟩ := mapM_total (l := ts) (f := fun t => newpointDer false X Xd h t res.scheme k sp)
        (fun t ht => newpointDer_total ho hd hM hst hX2 hh0 (hk k hk'.1 hk'.2) (hin' t ht).1 (hin' t ht).2)
      exact ⟨v, fun _ _ => hv⟩
    · exact ⟨[], fun h1 h2 => absurd ⟨h1, h2⟩ hk'⟩
  choose v hv using hvs
  have hv' : ∀ jj, 1 ≤ jj → jj ≤ p → interpolatedDerivative (elib res.x.width) false X res.u.rows h ts none (some Xd) res.scheme
      jj (some sp) = .ok (v jj, some sp) := by
    intro jj h1 h2
    rw [derivative_iff]
    exact ⟨hsup, _, _, _, _, hprep, hmiss _, by rw [derivativesAt, if_neg hsc]; exact hv jj h1 h2, rfl⟩
  -- the controls
  obtain ⟨us, hus⟩ : ∃ us, interpolateU (elib res.x.width) false X Xd none res.scheme res.u.rows (times h X.length) ts
      (equiU res.scheme none) sp = .ok us := by
    unfold interpolateU
    split_ifs with h1 h2
    · apply mapM_total
      intro t ht
      rw [← hUl]
      obtain ⟨p, rest, _, e⟩ := interpAt_cons (h := h) (U := res.u.rows) (by intro e; rw [e] at hUl; simp at hUl; omega) t
      exact ⟨_, e⟩
    · exfalso; simp [times] at h2; omega
    · dsimp only
      rw [times_step hh0 hX2]
      apply mapM_total
      intro t ht
      have hpar : pyIn "parab" res.scheme = true := by
        by_contra hc
        exact h1 (by simp [equiU, hc])
      obtain ⟨u_c, c1, c2, c3⟩ := huc hpar
      refine newpointU_total c3 (by omega) ?_ (by omega) hh0 (hin' t ht).1 (by rw [hUl]; exact (hin' t ht).2)
      simp only [equiU, hpar, if_true]
      split_ifs <;> simp
  have harr : interpolatedArray (elib res.x.width) false X res.u.rows h ts none (some Xd) res.scheme (equiU res.scheme none)
      (some sp) = .ok ((xs, us), some sp) := by
    rw [array_iff]
    refine ⟨?_, _, _, _, _, hprep, hmiss _, hus, by rw [statesAt, if_neg hsc]; exact hxs, rfl⟩
    have ho' : SchemeIs ((some sp).getD Params.empty).order res.scheme s M := ho
    generalize ((some sp).getD Params.empty).order = o at ho'
    generalize res.scheme = S at ho' ⊢
    unfold Accepts
    cases ho' <;> (refine ⟨by decide, by decide, by decide, by decide, ?_, fun h => absurd h.1 (by decide)⟩; intro hc; first
      | exact absurd hc (by decide)
      | (subst_vars; simp))
  obtain ⟨d', f1, f2, f3⟩ := equiDerivs_ok [("x", toArr2 xs), ("u", ⟨res.u.width, us⟩), ("t", column ts)] p hv'
  have hxl : xs.length = ts.length := (Interp.mapM_ok hxs).1
  have hvl : ∀ k, 1 ≤ k → k ≤ p → (v k).length = ts.length := fun k h1 h2 => (Interp.mapM_ok (hv k h1 h2)).1
  obtain ⟨g, hg⟩ : ∃ g : ℕ → ℕ → ℕ → ℝ, g = fun ii i c => if ii = 0 then coord (xs.getD i 0) c else coord ((v ii).getD i 0) c :=
    ⟨_, rfl⟩
  have fx := f3 "x" (fun jj h1 e => by
    rw [← dName_zero "x"] at e
    have := (dName_inj x_plain x_plain e).2
    omega)
  have fu := f3 "u" (fun jj h1 e => by
    rw [← dName_zero "u"] at e
    exact absurd (dName_inj u_plain x_plain e).1 (by decide))
  have ft := f3 "t" (fun jj h1 e => by
    rw [← dName_zero "t"] at e
    exact absurd (dName_inj t_plain x_plain e).1 (by decide))
  simp only [Arrays.get, List.find?_cons, beq_self_eq_true, Option.map_some] at fx
  simp only [Arrays.get, List.find?_cons, show (("x" : String) == "u") = false by decide, beq_self_eq_true, Option.map_some] at fu
  simp only [Arrays.get, List.find?_cons, show (("x" : String) == "t") = false by decide,
    show (("u" : String) == "t") = false by decide, beq_self_eq_true, Option.map_some] at ft
  obtain ⟨D, k1, k2, k3, k4⟩ := nameArrays_ok (p := p) (n := ts.length) (n_q := n_q) hp (g := g) (d0 := d') (by
    intro ii hii
    by_cases h0 : ii = 0
    · subst h0
      refine ⟨toArr2 xs, by rw [dName_zero]; exact fx, ?_⟩
      have := holds_width (toArr2_holds xs) (hd.trans hpq.symm)
      rw [hxl] at this
      rw [hg]
      simpa using this
    · refine ⟨_, f2 ii (by omega) hii, ?_⟩
      have := holds_width (toArr2_holds (v ii)) (hd.trans hpq.symm)
      rw [hvl ii (by omega) hii] at this
      rw [hg]
      simpa [h0] using this)
  refine ⟨D, g, us, interpolation_flat save (by rw [hr.mode]; decide) ?_, k2, k3.trans fu, k4.trans ft, ?_⟩
  · simp only [flat, hr.first, hr.last, show p ≠ 0 by omega, if_false, hr.width, ← hpq, Nat.mul_mod_right, not_true, hr.mode,
      if_true, instantsOf_eq, ← hts, equi, hr.count, show N ≠ 1 by omega, e0, bind, Except.bind, ← hT, ← hh, ← hX, ← hXd]
    rw [harr]
    simp only [liftP, f1, pure, Except.pure]
    exact k1
  · have hx : ∀ i t, ts[i]? = some t → ∃ y, xs.getD i 0 = y ∧ newpoint false X Xd h t res.scheme sp = .ok y := by
      intro i t hi
      obtain ⟨y, y1, y2⟩ := (Interp.mapM_ok hxs).2 i _ hi
      exact ⟨y, by rw [List.getD_eq_getElem?_getD, y1, Option.getD_some], y2⟩
    have hvd : ∀ k, 1 ≤ k → k ≤ p → ∀ i t, ts[i]? = some t →
        ∃ y, (v k).getD i 0 = y ∧ newpointDer false X Xd h t res.scheme k sp = .ok y := by
      intro k h1 h2 i t hi
      obtain ⟨y, y1, y2⟩ := (Interp.mapM_ok (hv k h1 h2)).2 i _ hi
      exact ⟨y, by rw [List.getD_eq_getElem?_getD, y1, Option.getD_some], y2⟩
    have hNl : ∀ n : ℕ, n + 1 < N → (n : ℝ) + 2 ≤ N := by
      intro n hn
      exact_mod_cast (show n + 2 ≤ N by omega)
    have hu0 : ∀ n, n < N → res.u.rows[n]? = some (rows res.u.rows n) := by
      intro n hn
      have := List.getElem?_eq_getElem (l := res.u.rows) (i := n) (by rw [hr.u]; exact hn)
      rw [this, rows_of this]
    have hstate : ∀ (i n : ℕ) (θ : ℝ) c, ts[i]? = some ((n + θ) * h) → n + 1 < N → θ = 0 ∨ 1e-8 ≤ θ ∧ θ ≤ 1 - 1e-8 →
        OnStep res s M dim h n c → ∀ q < M, ∀ j < dim, coord (xs.getD i 0) (dim * q + j) = c j q (θ * h) := by
      intro i n θ c hi hn hθ hc q hq j hj
      obtain ⟨y, y1, y2⟩ := hx i _ hi
      rw [y1]
      rcases hθ with rfl | ⟨h1, h2⟩
      · rw [C14_sample (hstep n hn).x hh0 (by rw [add_zero, sub_self, abs_zero]; positivity)] at y2
        cases y2
        rw [coord_ofRow _ (by rw [hd]; exact equi_col_lt hq hj), zero_mul]
        have := hc j hj
        cases s with
        | line => exact (LinearMotion.start this q hq).symm
        | parab θ => exact (ParabolicMotion.start this q hq).symm
      · obtain ⟨y', e1, e2⟩ := C14_piece ho hd hM (hstep n hn) hh0 (t := (n + θ) * h) (by nlinarith) (by nlinarith)
        rw [y2] at e1
        cases e1
        rw [show ((n : ℝ) + θ) * h - n * h = θ * h by ring] at e2
        exact onStep_curve hd hM hc e2 hq hj
    refine ⟨?_, ?_, ?_, ?_, ?_, ?_⟩
    · intro i n θ c hi hn hθ hc ii hii q hq j hj
      rw [hg]
      dsimp only
      by_cases h0 : ii = 0
      · subst h0
        rw [if_pos rfl]
        exact hstate i n θ c hi hn hθ hc q hq j hj
      · rw [if_neg h0]
        obtain ⟨y, y1, y2⟩ := hvd ii (by omega) hii i _ hi
        rw [y1]
        have hθ' : 0 ≤ θ ∧ θ ≤ 1 - 1e-8 := by
          rcases hθ with rfl | ⟨h1, h2⟩
          · norm_num
          · exact ⟨by linarith, h2⟩
        have hn' := hNl n hn
        obtain ⟨y', e1, e2⟩ := C14_derivative ho hd hM (hstep n hn) (hk ii (by omega) hii) hh0 (t := (n + θ) * h)
          (by nlinarith [hθ'.1]) (by nlinarith [hθ'.2]) (by rw [hXl]; nlinarith [hθ'.2])
        rw [y2] at e1
        cases e1
        rw [show ((n : ℝ) + θ) * h - n * h = θ * h by ring] at e2
        exact onStep_curve hd hM hc e2 hq hj
    · intro i n c hi hn hc
      have htn : T = (n + 1) * h := by
        rw [← hend, hn]; push_cast; ring
      refine ⟨fun col hcol => ?_, fun ii h1 hii q hq j hj => ?_⟩
      · obtain ⟨y, y1, y2⟩ := hx i _ hi
        rw [hg]
        dsimp only
        rw [if_pos rfl, y1]
        rw [C14_sample (n := n + 1) (hstep n (by omega)).xn hh0 (by rw [htn]; push_cast; rw [sub_self, abs_zero]; positivity)] at y2
        cases y2
        exact coord_ofRow _ (by rw [hd]; exact hcol)
      · rw [hg]
        dsimp only
        rw [if_neg (by omega)]
        obtain ⟨y, y1, y2⟩ := hvd ii h1 hii i _ hi
        rw [y1]
        obtain ⟨y', e1, e2⟩ := C14_derivative_end ho hd hM (hstep n (by omega)) (by omega) (hk ii h1 hii) hh0 (t := T)
          (by rw [htn, sub_self, abs_zero]; positivity)
        rw [y2] at e1
        cases e1
        exact onStep_curve hd hM hc e2 hq hj
    · unfold interpolateU at hus
      split_ifs at hus with h1 h2
      · exact (Interp.mapM_ok hus).1
      · exact (Interp.mapM_ok hus).1
    · intro hpar i n θ hi hn h0 h1 col
      rw [interpolateU, if_pos (by simp [equiU, hpar])] at hus
      obtain ⟨y, y1, y2⟩ := (Interp.mapM_ok hus).2 i _ hi
      rw [← hUl, C16_lin hh0 (hu0 n (by omega)) (hu0 (n + 1) hn) h0 h1] at y2
      cases y2
      rw [rows_of y1]
      rfl
    · intro hpar m hm i n θ hi hn hθ A B C hA hC hB
      obtain ⟨u_c, c1, c2, c3⟩ := huc hpar
      have hucn : u_c.rows[n]? = some (rows u_c.rows n) := by
        have := List.getElem?_eq_getElem (l := u_c.rows) (i := n) (by omega)
        rw [this, rows_of this]
      rw [c1, Option.getD_some] at hC
      have hne : equiU res.scheme none ≠ "lin" := by
        simp only [equiU, hpar, if_true]
        split_ifs <;> decide
      rw [interpolateU, if_neg hne, if_neg (by simp [times]; omega)] at hus
      dsimp only at hus
      rw [times_step hh0 hX2] at hus
      obtain ⟨y, y1, y2⟩ := (Interp.mapM_ok hus).2 i _ hi
      rw [rows_of y1]
      rcases hθ with rfl | ⟨h1, h2⟩
      · rw [C16_newpoint_sample _ _ _ _ _ _ (hu0 n (by omega)) hh0 (by rw [add_zero, sub_self, abs_zero]; positivity)] at y2
        cases y2
        rw [hA]
        simp
      · have hus' : (m = 1 / 2 ∧ equiU res.scheme none = "parab") ∨ (m = 2 / 5 ∧ equiU res.scheme none = "parab_j") := by
          generalize res.scheme = S at hs hpar ⊢
          cases hs <;> first
            | exact absurd hpar (by decide)
            | (left; exact ⟨by cases hm; rfl, by decide⟩)
            | (right; exact ⟨by cases hm; rfl, by decide⟩)
        have e : ((n : ℝ) + θ) * h - n * h = θ * h := by ring
        rcases hus' with ⟨rfl, e'⟩ | ⟨rfl, e'⟩
        · rw [e', C16_newpoint_parab _ _ _ _ _ _ A B C hh0 (by rw [hu0 n (by omega), hA]) (by rw [hu0 _ hn, hB])
            (by rw [hucn, hC, show 1 / 2 * h = h / 2 by ring]) (by nlinarith) (by nlinarith) c3, e] at y2
          cases y2
          rfl
        · rw [e', C16_newpoint_parab_j _ _ _ _ _ _ A B C hh0 (by rw [hu0 n (by omega), hA]) (by rw [hu0 _ hn, hB])
            (by rw [hucn, hC, show 2 / 5 * h = 2 * h / 5 by ring]) (by nlinarith) (by nlinarith) c3, e] at y2
          cases y2
          rfl
    · intro i n hi hn
      have htn : T = n * h := by
        rw [← hend, hn]; push_cast; ring
      unfold interpolateU at hus
      split_ifs at hus with h1 h2
      · obtain ⟨y, y1, y2⟩ := (Interp.mapM_ok hus).2 i _ hi
        rw [← hUl, C16_lin_end hh0 (by rw [hr.u]; exact hn) (hu0 n (by omega)) htn.ge] at y2
        cases y2
        exact rows_of y1
      · dsimp only at hus
        rw [times_step hh0 hX2] at hus
        obtain ⟨y, y1, y2⟩ := (Interp.mapM_ok hus).2 i _ hi
        rw [C16_newpoint_sample _ _ _ _ _ _ (hu0 n (by omega)) hh0 (by rw [htn, sub_self, abs_zero]; positivity)] at y2
        cases y2
        exact rows_of y1

/-- C116: for a result of an equispaced problem that starts at time zero, with any scheme, default options and instants
between the start and the end, `interpolation` returns without an exception; the entries of the dictionary are the motions
of the steps, their derivatives, and the linear or parabolic controls. -/
theorem C116_partial {res : Res} {s : Shape} {N M dim : ℕ} (hs : SchemeIs (some res.solve_order) res.scheme s M) (hM : 0 < M)
    (hN : 2 ≤ N) {tf : ℝ} (htf : 0 < tf) (hr : EquiRes res N M dim 0 tf) {p n_q : ℕ} (hp : 1 ≤ p) (hpq : p * n_q = M * dim)
    (hj : s = .parab (2 / 5) → p ≤ 2) (elib : (d : ℕ) → Interp.Lib d Row) (lib : PsInterp.Lib) (m n : ℕ)
    (given : Option (List ℝ)) (hne : instants 0 tf n given ≠ []) (hin : ∀ t ∈ instants 0 tf n given, 0 ≤ t ∧ t ≤ tf)
    (save : Bool) :
    ∃ d g us, interpolation elib lib res p m none none n save (asGiven given)
        = .ok ({ arrs := d }, if save then { res with interpolations := some { arrs := d } } else res) ∧
      Distributed p (instants 0 tf n given).length n_q g d ∧ d.get "u" = some ⟨res.u.width, us⟩ ∧
      d.get "t" = some (column (instants 0 tf n given)) ∧
      OnSteps res s N M dim p tf (tf / ((N : ℝ) - 1)) (instants 0 tf n given) g us := by
  have := equi_local hs hM hN htf hr hp hpq hj elib lib m n given hne (by rw [sub_zero]; exact hin) save
  rwa [sub_zero] at this

/-- The default instants meet the hypotheses. -/
theorem default_instants {tf : ℝ} (htf : 0 < tf) {n : ℕ} (hn : 1 ≤ n) :
    instants 0 tf n none ≠ [] ∧ ∀ t ∈ instants 0 tf n none, 0 ≤ t ∧ t ≤ tf := by
  refine ⟨fun h => ?_, fun t ht => ?_⟩
  · have := linspace_length 0 tf n
    rw [show linspace 0 tf n = [] from h] at this
    simp at this; omega
  · obtain ⟨i, hi, rfl⟩ := List.getElem_of_mem ht
    exact linspace_get (List.getElem?_eq_getElem hi) htf.le

theorem linspace_last {a b : ℝ} {n : ℕ} (hn : 2 ≤ n) : (linspace a b n).getLast? = some b := by
  rw [List.getLast?_eq_getElem?, linspace_length]
  unfold Chords.Ph.linspace
  rw [if_neg (by omega)]
  have : ((n - 1 : ℕ) : ℝ) = (n : ℝ) - 1 := by rw [Nat.cast_sub (by omega)]; simp
  have h2 : (2 : ℝ) ≤ n := by exact_mod_cast hn
  simp [show n - 1 < n by omega, this]
  rw [mul_div_cancel₀ _ (by linarith)]
  ring

/-- C116 fails when the problem starts later: whatever the result holds, with the default instants `interpolation` raises. -/
theorem C116_refuted (elib : (d : ℕ) → Interp.Lib d Row) (lib : PsInterp.Lib) {res : Res} {N : ℕ} (hN : 2 ≤ N) {t0 tf : ℝ}
    (ht : t0 < tf) (mode : res.scheme_mode = "equispaced") (first : res.t.head? = some t0) (last : res.t.getLast? = some tf)
    (count : res.t.length = N) (x : res.x.rows.length = N) (late : (tf - t0) / ((N : ℝ) - 1) * 1e-9 < t0) {n : ℕ} (hn : 2 ≤ n)
    (p m : ℕ) (x_interp u_interp : Option String) (save : Bool) :
    ∃ e, interpolation elib lib res p m x_interp u_interp n save .absent = .error e := by
  obtain ⟨h, hh⟩ : ∃ h, h = (tf - t0) / ((N : ℝ) - 1) := ⟨_, rfl⟩
  rw [← hh] at late
  have hlen : (2 : ℝ) ≤ N := by exact_mod_cast hN
  have hend : ((N : ℝ) - 1) * h = tf - t0 := by rw [hh, mul_div_cancel₀ _ (by linarith)]
  suffices H : ∃ e, flat elib lib res p m x_interp u_interp n none = .error e by
    obtain ⟨e, he⟩ := H
    exact ⟨e, by simp only [interpolation, mode, show (("equispaced" : String).toList.take 3 = ['p', 'h', ' ']) = False by decide,
      if_false, he, bind, Except.bind]⟩
  simp only [flat, first, last]
  split_ifs
  · exact ⟨_, rfl⟩
  · simp only [mode, if_true, equi, count, show N ≠ 1 by omega, if_false, bind, Except.bind, instantsOf, ← hh]
    cases equiParams res with
    | error e => exact ⟨e, rfl⟩
    | ok sp =>
      dsimp only
      cases e : interpolatedArray (elib res.x.width) false (res.x.rows.map ofRow) res.u.rows h (linspace t0 tf n) none
          (some (res.x_d.rows.map ofRow)) res.scheme (equiU res.scheme u_interp) (some sp) with
      | error e' =>
        refine ⟨match e' with
          | .valueError => .value | .indexError => .index | .keyError => .key | .typeError => .type
          | .nameError => .name | .unbound => .unbound, ?_⟩
        cases e' <;> rfl
      | ok r =>
        exfalso
        obtain ⟨r, o⟩ := r
        obtain ⟨t, t1, t2⟩ := (C14_call_last (k := 0)).1 r e
        rw [linspace_last hn] at t1
        cases t1
        rw [List.length_map, x, hend] at t2
        linarith
  · exact ⟨_, rfl⟩

/-- The result of a problem solved with `trapz` from time -1 to time 1: the state is the time plus one. -/
def earlyRes : Res where
  scheme := "trapz"
  scheme_mode := "equispaced"
  solve_order := 1
  x := ⟨1, [fun _ => 0, fun _ => 1, fun _ => 2]⟩
  x_d := ⟨1, [fun _ => 1, fun _ => 1, fun _ => 1]⟩
  u := ⟨1, [fun _ => 0, fun _ => 0, fun _ => 0]⟩
  t := [-1, 0, 1]

theorem earlyRes_equi : EquiRes earlyRes 3 1 1 (-1) 1 :=
  ⟨rfl, rfl, rfl, rfl, rfl, rfl, rfl, rfl, fun h => absurd h (by decide)⟩

/-- C116 fails when the problem starts earlier: at time zero, where the state is 1, the state at the start is returned. -/
theorem C116_early_refuted : EquiRes earlyRes 3 1 1 (-1) 1 ∧ (∀ i < 3, rows earlyRes.x.rows i 0 = arr earlyRes.t i + 1) ∧
    arr earlyRes.t 1 = 0 ∧ ∀ (elib : (d : ℕ) → Interp.Lib d Row) (lib : PsInterp.Lib) (m n : ℕ),
      ∃ d res' q, interpolation elib lib earlyRes 1 m none none n true (.times [0]) = .ok ({ arrs := d }, res') ∧
        d.get "q" = some q ∧ q.rows.length = 1 ∧ rows q.rows 0 0 = 0 := by
  refine ⟨earlyRes_equi, fun i hi => ?_, rfl, fun elib lib m n => ?_⟩
  · interval_cases i <;> norm_num [earlyRes, rows, arr]
  · obtain ⟨d, g, us, e1, e2, -, -, e5⟩ := equi_local (res := earlyRes) (s := .line) (M := 1) (dim := 1) .trapz one_pos
      (N := 3) (by norm_num) (by norm_num) earlyRes_equi (p := 1) (n_q := 1) le_rfl rfl (by intro h; cases h) elib lib m n
      (some [0]) (by simp [instants]) (by simp [instants]) true
    obtain ⟨name, q, n1, q1, q2⟩ := e2.block 0 0 (by norm_num)
    have hn : qAndDersNames 1 = ["q", "v"] := by decide
    rw [hn] at n1
    simp only [List.getElem?_cons_zero, Option.some.injEq] at n1
    subst n1
    refine ⟨d, _, q, e1, q1, by rw [q2.2.1]; simp [instants], ?_⟩
    rw [q2.2.2 0 (by simp [instants]) 0 one_pos]
    obtain ⟨c, hc⟩ := stepMotion_exists (s := .line) (M := 1) (order := none) .trapz (fun _ => 0) 1 0 1
      ((1 - -1 : ℝ) / (((3 : ℕ) : ℝ) - 1)) (by norm_num)
    have := e5.inside 0 0 0 (fun _ => c) (by simp [instants]) (by norm_num) (.inl rfl)
      (fun j hj => by
        obtain rfl : j = 0 := by omega
        refine stepMotion_congr (x := fun _ => 0) (fun q hq => ?_) (by simpa [earlyRes, rows] using hc)
        obtain rfl : q = 0 := by omega
        simp [earlyRes, rows]) 0 (by norm_num) 0 one_pos 0 one_pos
    simp only [mul_zero, add_zero, zero_mul] at this ⊢
    rw [this]
    exact LinearMotion.start hc 0 one_pos

/-- A result that C116 is about: `hs_mod` from time 0 to time 2, the position is the square of the time. -/
noncomputable def squareRes : Res where
  scheme := "hs_mod"
  scheme_mode := "equispaced"
  solve_order := 2
  x := ⟨2, [![0, 0], ![1, 2], ![4, 4]].map fun r : Fin 2 → ℝ => coord r⟩
  x_d := ⟨2, [![0, 2], ![2, 2], ![4, 2]].map fun r : Fin 2 → ℝ => coord r⟩
  u := ⟨1, [fun _ => 2, fun _ => 2, fun _ => 2]⟩
  t := [0, 1, 2]
  x_c := some ⟨2, [![1 / 4, 1], ![9 / 4, 3]].map fun r : Fin 2 → ℝ => coord r⟩
  u_c := some ⟨1, [fun _ => 2, fun _ => 2]⟩
  x_d_c := some ⟨2, [![1, 2], ![3, 2]].map fun r : Fin 2 → ℝ => coord r⟩

example : EquiRes squareRes 3 2 1 0 2 ∧ SchemeIs (some squareRes.solve_order) squareRes.scheme (.parab (1 / 2)) 2 :=
  ⟨⟨rfl, rfl, rfl, rfl, rfl, rfl, rfl, rfl, fun _ => ⟨_, _, _, rfl, rfl, rfl, rfl, rfl⟩⟩, .hs_mod⟩

end Chords.Props
