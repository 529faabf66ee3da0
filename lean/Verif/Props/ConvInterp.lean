import Verif.Props.ConvOpt
import Verif.Props.EquiInterp
import Verif.Props.InterpErrors

/-! # C156: the interpolated trajectories of equispaced problems follow the motion of the system -/

namespace Chords.Conv
open Set Chords.Spec Chords.Props Chords.BuTd Chords.Equi Chords.Problem Chords.Interpolation Chords.PsInterp Chords.DynErr

/-- The arrays of a result are the values of the variables of the problem. -/
structure Solution (res : Res) (order n_q N : ℕ) (v c : Vars) : Prop where
  x : ∀ i ≤ N, ∀ k < order * n_q, rows res.x.rows i k = v.x i k
  xd : ∀ i ≤ N, ∀ k < order * n_q, rows res.x_d.rows i k = v.xd i k
  xdc : pyIn "hs" res.scheme = true → ∀ i < N, ∀ k < order * n_q, rows (res.x_d_c.getD ⟨0, []⟩).rows i k = c.xd i k

/-- The states in the dictionary are as close to the motion as a bound, at the instants that are not within 1e-8 of the step of a sample, at the samples,
and at the end. -/
def StatesNear (d : Arrays) (ts : List ℝ) (order n_q N : ℕ) (h T : ℝ) (Z : ℕ → ℕ → ℕ → ℝ → ℝ) (y : ℕ → ℕ → ℕ → ℝ) (b : ℕ → ℝ) (e : ℝ) : Prop :=
  ∃ a, d.get "x" = some a ∧ a.width = order * n_q ∧ a.rows.length = ts.length ∧
    (∀ (i n : ℕ) (θ : ℝ), ts[i]? = some ((n + θ) * h) → n < N → θ = 0 ∨ 1e-8 ≤ θ ∧ θ ≤ 1 - 1e-8 →
      ∀ p < order, ∀ j < n_q, |rows a.rows i (n_q * p + j) - Z n j p (θ * h)| ≤ b n) ∧
    ∀ i : ℕ, ts[i]? = some T → ∀ p < order, ∀ j < n_q, |rows a.rows i (n_q * p + j) - y N p j| ≤ e

/-- The derivatives of `q` in the dictionary are as close to those of the motion as a bound. -/
def DersNear (d : Arrays) (ts : List ℝ) (order n_q N : ℕ) (h : ℝ) (Z : ℕ → ℕ → ℕ → ℝ → ℝ) (b : ℕ → ℝ) : Prop :=
  ∀ ii < order, ∃ a, d.get (dName "q" ii) = some a ∧ a.width = n_q ∧ a.rows.length = ts.length ∧
    ∀ (i n : ℕ) (θ : ℝ), ts[i]? = some ((n + θ) * h) → n < N → θ = 0 ∨ 1e-8 ≤ θ ∧ θ ≤ 1 - 1e-8 →
      ∀ j < n_q, |rows a.rows i j - Z n j ii (θ * h)| ≤ b n

private theorem theta_mem {θ h : ℝ} (hh : 0 ≤ h) (hθ : θ = 0 ∨ 1e-8 ≤ θ ∧ θ ≤ 1 - 1e-8) : θ * h ∈ Icc (0 : ℝ) h := by
  have : 0 ≤ θ ∧ θ ≤ 1 := by
    rcases hθ with rfl | ⟨h1, h2⟩
    · exact ⟨le_rfl, zero_le_one⟩
    · exact ⟨le_trans (by norm_num) h1, h2.trans (by norm_num)⟩
  exact ⟨mul_nonneg this.1 hh, mul_le_of_le_one_left hh this.2⟩

private theorem lt_len {ts : List ℝ} {i : ℕ} {t : ℝ} (h : ts[i]? = some t) : i < ts.length := by
  obtain ⟨h1, -⟩ := List.getElem?_eq_some_iff.1 h
  exact h1

private theorem col_lt {order n_q p j : ℕ} (hp : p < order) (hj : j < n_q) : n_q * p + j < order * n_q := by
  have : n_q * (p + 1) ≤ n_q * order := Nat.mul_le_mul_left _ hp
  rw [mul_comm order]
  calc n_q * p + j < n_q * p + n_q := by omega
    _ = n_q * (p + 1) := by ring
    _ ≤ _ := this

theorem line_or_hs {order : Option ℕ} {scheme : String} {s : Shape} {M : ℕ} (hs : SchemeIs order scheme s M) : s = .line ∨ pyIn "hs" scheme = true := by
  cases hs <;> first | exact .inl rfl | exact .inr (by decide)

theorem jerk_order {order : Option ℕ} {scheme : String} {s : Shape} {M : ℕ} (hs : SchemeIs order scheme s M) : s = .parab (2 / 5) → M ≤ 2 := by
  intro h
  cases hs <;> first | exact le_rfl | exact one_le_two | cases h | (injection h with h; norm_num at h)

/-- The derivative at the centre does not matter for the lines. -/
theorem stepMotion_centre {s : Shape} {M : ℕ} {x : ℕ → ℝ} {a ac ac' an h : ℝ} {c : ℕ → ℝ → ℝ} (hc : s = .line ∨ ac = ac')
    (hm : StepMotion s M x a ac an h c) : StepMotion s M x a ac' an h c := by
  rcases hc with rfl | rfl
  · exact hm
  · exact hm

theorem stepMotion_congr {s : Shape} {M : ℕ} {x x' : ℕ → ℝ} {a ac an h : ℝ} {c : ℕ → ℝ → ℝ} (hx : ∀ p < M, x p = x' p)
    (hm : StepMotion s M x a ac an h c) : StepMotion s M x' a ac an h c := by
  cases s with
  | line => exact ⟨hm.motion, fun p hp => (hm.start p hp).trans (hx p hp), hm.top_line, hm.top_end⟩
  | parab θ => exact ⟨hm.motion, fun p hp => (hm.start p hp).trans (hx p hp), hm.top_parabola, hm.top_mid, hm.top_end⟩

theorem lev_state {v : Vars} {order n_q p i j : ℕ} (hp : p < order) : v.lev order n_q p i j = v.x i (n_q * p + j) := by
  rw [Vars.lev, if_pos hp]

theorem lev_last {v : Vars} {order n_q i j : ℕ} : v.lev order n_q order i j = v.xd i (n_q * (order - 1) + j) := by
  rw [Vars.lev, if_neg (lt_irrefl _)]

theorem curves_onStep {res : Res} {s : Shape} {order n_q N : ℕ} (hs : SchemeIs (some res.solve_order) res.scheme s order) (ho : 0 < order) {h : ℝ} {v c : Vars}
    (hsol : Solution res order n_q N v c) {n : ℕ} (hn : n < N) {z : ℕ → ℕ → ℝ → ℝ}
    (hz : ∀ j < n_q, StepMotion s order (fun p => v.lev order n_q p n j) (v.lev order n_q order n j) (c.lev order n_q order n j) (v.lev order n_q order (n + 1) j) h (z j)) :
    OnStep res s order n_q h n z := by
  intro j hj
  have hl := col_lt (p := order - 1) (Nat.sub_lt ho one_pos) hj
  rw [hsol.xd n hn.le _ hl, hsol.xd (n + 1) hn _ hl, ← lev_last, ← lev_last]
  refine stepMotion_centre ?_ (stepMotion_congr (fun p hp => ?_) (hz j hj))
  · refine (line_or_hs hs).imp id fun hh => ?_
    rw [hsol.xdc hh n hn _ hl, lev_last]
  · rw [hsol.x n hn.le _ (col_lt hp hj), lev_state hp]

/-- The interpolation of a solved problem is close to the motion when the samples and the curves of the scheme are. -/
theorem interp_curves {res : Res} {s : Shape} {order n_q N : ℕ} (hs : SchemeIs (some res.solve_order) res.scheme s order) (ho : 0 < order) (hN : 0 < N)
    {t0 tf h : ℝ} (ht : t0 < tf) (hh : h = (tf - t0) / N) (hr : EquiRes res (N + 1) order n_q t0 tf) {v c : Vars} (hsol : Solution res order n_q N v c)
    {Z : ℕ → ℕ → ℕ → ℝ → ℝ} {y : ℕ → ℕ → ℕ → ℝ} {b e : ℕ → ℝ} (hS : SamplesNear order n_q N v y e) (hC : CurvesNear s order n_q N h v c Z b)
    (elib : (d : ℕ) → Interp.Lib d Row) (lib : PsInterp.Lib) (m n : ℕ) (given : Option (List ℝ)) (hne : instants t0 tf n given ≠ [])
    (hin : ∀ t ∈ instants t0 tf n given, 0 ≤ t ∧ t ≤ tf - t0) (save : Bool) :
    ∃ d, interpolation elib lib res order m none none n save (asGiven given)
        = .ok ({ arrs := d }, if save then { res with interpolations := some { arrs := d } } else res) ∧
      StatesNear d (instants t0 tf n given) order n_q N h (tf - t0) Z y b (e N) ∧ DersNear d (instants t0 tf n given) order n_q N h Z b := by
  have hN' : (0 : ℝ) < N := by exact_mod_cast hN
  have hpos : 0 ≤ h := by rw [hh]; exact div_nonneg (by linarith) hN'.le
  obtain ⟨d, g, us, e1, e2, -, -, e5⟩ := equi_local hs ho (N := N + 1) (by omega) ht hr (p := order) (n_q := n_q) ho rfl
    (jerk_order hs) elib lib m n given hne hin save
  obtain ⟨ts, hts⟩ : ∃ ts, ts = instants t0 tf n given := ⟨_, rfl⟩
  rw [← hts] at e2 e5 ⊢
  rw [show ((N + 1 : ℕ) : ℝ) - 1 = N by push_cast; ring, ← hh] at e5
  have hz : ∀ n < N, ∃ z, OnStep res s order n_q h n z ∧ ∀ j < n_q, ∀ p < order, ∀ τ ∈ Icc (0 : ℝ) h, |z j p τ - Z n j p τ| ≤ b n := by
    intro n hn
    choose! z hz using hC n hn
    exact ⟨z, curves_onStep hs ho hsol hn fun j hj => (hz j hj).1, fun j hj => (hz j hj).2⟩
  refine ⟨d, e1, ?_, ?_⟩
  · obtain ⟨a, a1, a2, a3, a4⟩ := e2.whole 0 (Nat.zero_le _)
    refine ⟨a, a1, a2, a3, fun i n θ hi hn hθ p hp j hj => ?_, fun i hi p hp j hj => ?_⟩
    · obtain ⟨z, z1, z2⟩ := hz n hn
      rw [a4 i (lt_len hi) _ (col_lt hp hj), e5.inside i n θ z hi (by omega) hθ z1 0 (Nat.zero_le _) p hp j hj]
      exact z2 j hj p hp _ (theta_mem hpos hθ)
    · obtain ⟨k, rfl⟩ : ∃ k, N = k + 1 := ⟨N - 1, by omega⟩
      obtain ⟨z, z1, z2⟩ := hz k (by omega)
      rw [a4 i (lt_len hi) _ (col_lt hp hj), (e5.finish i k z hi rfl z1).1 _ (col_lt hp hj), hsol.x _ le_rfl _ (col_lt hp hj), ← lev_state hp]
      exact hS _ le_rfl j hj p hp
  · intro ii hii
    obtain ⟨a, a1, a2, a3, a4⟩ := distributed_q e2 ho hii.le
    refine ⟨a, a1, a2, a3, fun i n θ hi hn hθ j hj => ?_⟩
    obtain ⟨z, z1, z2⟩ := hz n hn
    have := e5.inside i n θ z hi (by omega) hθ z1 ii hii.le 0 ho j hj
    rw [mul_zero, zero_add, zero_add] at this
    rw [a4 i (lt_len hi) _ hj]
    dsimp only
    rw [this]
    exact z2 j hj ii hii _ (theta_mem hpos hθ)

/-- The derivatives of the first levels are the next levels. -/
def Chained (order n_q n : ℕ) (v : Vars) : Prop := ∀ i < n, ∀ p < order, ∀ j < n_q, v.xd i (n_q * p + j) = v.lev order n_q (p + 1) i j

/-- Same as `interp_curves`, for the schemes of first order. -/
theorem interp_levels {res : Res} {s : Shape} {order n_q N : ℕ} (hs : SchemeIs (some res.solve_order) res.scheme s 1) (hs' : s ≠ .parab (2 / 5)) (ho : 0 < order) (hN : 0 < N)
    {t0 tf h : ℝ} (ht : t0 < tf) (hh : h = (tf - t0) / N) (hr : EquiRes res (N + 1) 1 (order * n_q) t0 tf) {v c : Vars} (hsol : Solution res order n_q N v c)
    (hv : Chained order n_q (N + 1) v) (hc : pyIn "hs" res.scheme = true → Chained order n_q N c)
    {Z : ℕ → ℕ → ℕ → ℝ → ℝ} {y : ℕ → ℕ → ℕ → ℝ} {b e : ℕ → ℝ} (hS : SamplesNear order n_q N v y e) (hC : LevelsNear s order n_q N h v c Z b)
    (elib : (d : ℕ) → Interp.Lib d Row) (lib : PsInterp.Lib) (m n : ℕ) (given : Option (List ℝ)) (hne : instants t0 tf n given ≠ [])
    (hin : ∀ t ∈ instants t0 tf n given, 0 ≤ t ∧ t ≤ tf - t0) (save : Bool) :
    ∃ d, interpolation elib lib res order m none none n save (asGiven given)
        = .ok ({ arrs := d }, if save then { res with interpolations := some { arrs := d } } else res) ∧
      StatesNear d (instants t0 tf n given) order n_q N h (tf - t0) Z y b (e N) := by
  have hN' : (0 : ℝ) < N := by exact_mod_cast hN
  have hpos : 0 ≤ h := by rw [hh]; exact div_nonneg (by linarith) hN'.le
  obtain ⟨d, g, us, e1, e2, -, -, e5⟩ := equi_local hs one_pos (N := N + 1) (by omega) ht hr (p := order) (n_q := n_q) ho (one_mul _).symm
    (fun h => absurd h hs') elib lib m n given hne hin save
  obtain ⟨ts, hts⟩ : ∃ ts, ts = instants t0 tf n given := ⟨_, rfl⟩
  rw [← hts] at e2 e5 ⊢
  rw [show ((N + 1 : ℕ) : ℝ) - 1 = N by push_cast; ring, ← hh] at e5
  have hz : ∀ n < N, ∃ z, OnStep res s 1 (order * n_q) h n z ∧ ∀ p < order, ∀ j < n_q, ∀ τ ∈ Icc (0 : ℝ) h, |z (n_q * p + j) 0 τ - Z n j p τ| ≤ b n := by
    intro n hn
    choose! z hz using hC n hn
    refine ⟨fun k => z (k / n_q) (k % n_q), fun k hk => ?_, fun p hp j hj τ hτ => ?_⟩
    · have hq : 0 < n_q := Nat.pos_of_ne_zero fun h0 => by simp [h0] at hk
      have hp : k / n_q < order := Nat.div_lt_of_lt_mul (by rwa [mul_comm])
      have hj : k % n_q < n_q := Nat.mod_lt _ hq
      have hk' : k = n_q * (k / n_q) + k % n_q := (Nat.div_add_mod _ _).symm
      obtain ⟨p, hpd⟩ : ∃ p, p = k / n_q := ⟨_, rfl⟩
      obtain ⟨j, hjd⟩ : ∃ j, j = k % n_q := ⟨_, rfl⟩
      dsimp only
      rw [← hpd] at hp hk' ⊢
      rw [← hjd] at hj hk' ⊢
      rw [Nat.sub_self, mul_zero, zero_add, hsol.xd n hn.le _ hk, hsol.xd (n + 1) hn _ hk, hk', hv n (by omega) p hp j hj, hv (n + 1) (by omega) p hp j hj]
      refine stepMotion_centre ?_ (stepMotion_congr (fun q hq => ?_) (hz p hp j hj).1)
      · refine (line_or_hs hs).imp id fun h' => ?_
        rw [← hk', hsol.xdc h' n hn _ hk, hk', hc h' n hn p hp j hj]
      · obtain rfl : q = 0 := by omega
        rw [mul_zero, zero_add, ← hk', hsol.x n hn.le _ hk, hk', lev_state hp]
    · have hq : 0 < n_q := by omega
      dsimp only
      rw [Nat.mul_add_div hq, Nat.div_eq_of_lt hj, add_zero, Nat.mul_add_mod, Nat.mod_eq_of_lt hj]
      exact (hz p hp j hj).2 τ hτ
  obtain ⟨a, a1, a2, a3, a4⟩ := e2.whole 0 (Nat.zero_le _)
  refine ⟨d, e1, a, a1, a2, a3, fun i n θ hi hn hθ p hp j hj => ?_, fun i hi p hp j hj => ?_⟩
  · obtain ⟨z, z1, z2⟩ := hz n hn
    have := e5.inside i n θ z hi (by omega) hθ z1 0 (Nat.zero_le _) 0 one_pos _ (col_lt hp hj)
    rw [mul_zero, zero_add] at this
    rw [a4 i (lt_len hi) _ (col_lt hp hj), this]
    exact z2 p hp j hj _ (theta_mem hpos hθ)
  · obtain ⟨k, rfl⟩ : ∃ k, N = k + 1 := ⟨N - 1, by omega⟩
    obtain ⟨z, z1, z2⟩ := hz k (by omega)
    rw [a4 i (lt_len hi) _ (col_lt hp hj), (e5.finish i k z hi rfl z1).1 _ (by rw [one_mul]; exact col_lt hp hj), hsol.x _ le_rfl _ (col_lt hp hj), ← lev_state hp]
    exact hS _ le_rfl j hj p hp

/-! ### The motions of the solved problems -/

section
variable {F : Dyn} {order N n_q n_u : ℕ} {t0 tf : ℝ} {A : (ℕ → ℕ → ℝ) → (ℕ → ℝ) → ℕ → ℝ} {S : (ℕ → ℕ → ℝ) → Prop} {L K K' d0 h θ : ℝ}
  {y : ℕ → ℕ → ℕ → ℝ} {w : ℕ → ℝ → ℕ → ℝ} {Z : ℕ → ℕ → ℕ → ℝ → ℝ}

/-- What the theorems promise of the dictionary of a result: for all the requested instants, with default options. -/
def Follows (res : Res) (order n_q N : ℕ) (t0 tf h : ℝ) (Z : ℕ → ℕ → ℕ → ℝ → ℝ) (y : ℕ → ℕ → ℕ → ℝ) (b : ℕ → ℝ) (e : ℝ) (ders : Prop) : Prop :=
  ∀ (elib : (d : ℕ) → Interp.Lib d Row) (lib : PsInterp.Lib) (m n : ℕ) (given : Option (List ℝ)), instants t0 tf n given ≠ [] →
    (∀ t ∈ instants t0 tf n given, 0 ≤ t ∧ t ≤ tf - t0) → ∀ save : Bool,
    ∃ d, interpolation elib lib res order m none none n save (asGiven given)
        = .ok ({ arrs := d }, if save then { res with interpolations := some { arrs := d } } else res) ∧
      StatesNear d (instants t0 tf n given) order n_q N h (tf - t0) Z y b e ∧ (ders → DersNear d (instants t0 tf n given) order n_q N h Z b)

/-- C156 for the schemes whose highest derivative is a line, with the order of the problem. -/
theorem C156_line {res : Res} (hs : SchemeIs (some order) res.scheme .line order) (hso : res.solve_order = order) (ho : 0 < order) (hN : 0 < N) (hT : t0 < tf)
    (hr : EquiRes res (N + 1) order n_q t0 tf) (hF : Explicit F order n_q A) (hL0 : 0 ≤ L) (hL : LipA A S order n_q n_u L) (hh : h = (tf - t0) / N)
    (hhL : h * (2 + 2 * L) ≤ 1 / 2) (hM : Motions A order n_q 2 h N y w Z) (hK0 : 0 ≤ K)
    (hK : ∀ i < N, ∀ j < n_q, ∀ s ∈ Icc (0 : ℝ) h, |Z i j (order + 2) s| ≤ K) (hd : 0 ≤ d0) :
    ∃ P, equiConstraints F res.scheme N order n_q n_u t0 tf = .ok P ∧ ∀ v c : Vars, P v c → Solution res order n_q N v c → SampleControls n_u N h v w →
      InRegion S n_q N h v c Z → (∀ j < n_q, ∀ p < order, |v.lev order n_q p 0 j - y 0 p j| ≤ d0) →
      Follows res order n_q N t0 tf h Z y
        (fun i => 2 * (Real.exp (4 * (2 + 2 * L) * ((i + 1 : ℕ) * h)) * (d0 + (i + 1 : ℕ) * h * (4 * K) * h ^ 2)) + 3 * K * h ^ 3)
        (Real.exp (4 * (2 + 2 * L) * (N * h)) * (d0 + N * h * (4 * K) * h ^ 2)) True := by
  obtain ⟨P, hP, hv⟩ := C155_line hs hN hT hF hL0 hL hh hhL hM hK0 hK hd
  refine ⟨P, hP, fun v c hvc hsol hu hS h0 elib lib m n given hne hin save => ?_⟩
  obtain ⟨h1, h2⟩ := hv v c hvc hu hS h0
  obtain ⟨d, d1, d2, d3⟩ := interp_curves (hso ▸ hs) ho hN hT hh hr hsol h1 h2 elib lib m n given hne hin save
  exact ⟨d, d1, d2, fun _ => d3⟩

/-- C156 for the schemes whose highest derivative is a parabola, with the order of the problem. -/
theorem C156_parab {res : Res} (hs : SchemeIs (some order) res.scheme (.parab θ) order) (hso : res.solve_order = order) (ho : 0 < order) (hN : 0 < N) (hT : t0 < tf)
    (hr : EquiRes res (N + 1) order n_q t0 tf) (hF : Explicit F order n_q A) (hL0 : 0 ≤ L) (hL : LipA A S order n_q n_u L) (hh : h = (tf - t0) / N)
    (hhL : h * (2 + 20 * L) ≤ 1 / 2) (hM : Motions A order n_q 3 h N y w Z) (hK0 : 0 ≤ K)
    (hK : ∀ i < N, ∀ j < n_q, ∀ s ∈ Icc (0 : ℝ) h, |Z i j (order + 3) s| ≤ K) (hd : 0 ≤ d0) :
    ∃ P, equiConstraints F res.scheme N order n_q n_u t0 tf = .ok P ∧ ∀ v c : Vars, P v c → Solution res order n_q N v c → SampleControls n_u N h v w →
      (∀ i < N, ∀ m < n_u, c.u i m = w i (θ * h) m) → InRegion S n_q N h v c Z →
      (∀ j < n_q, ∀ p < order, |v.lev order n_q p 0 j - y 0 p j| ≤ d0) →
      Follows res order n_q N t0 tf h Z y
        (fun i => 2 * (Real.exp (4 * (2 + 20 * L) * ((i + 1 : ℕ) * h)) * (d0 + (i + 1 : ℕ) * h * (6 * K) * h ^ 3)) + 3 * K * h ^ 4)
        (Real.exp (4 * (2 + 20 * L) * (N * h)) * (d0 + N * h * (6 * K) * h ^ 3)) True := by
  obtain ⟨P, hP, hv⟩ := C155_parab hs hN hT hF hL0 hL hh hhL hM hK0 hK hd
  refine ⟨P, hP, fun v c hvc hsol hu huc hS h0 elib lib m n given hne hin save => ?_⟩
  obtain ⟨h1, h2⟩ := hv v c hvc hu huc hS h0
  obtain ⟨d, d1, d2, d3⟩ := interp_curves (hso ▸ hs) ho hN hT hh hr hsol h1 h2 elib lib m n given hne hin save
  exact ⟨d, d1, d2, fun _ => d3⟩

/-- C156 for the schemes whose highest derivative is a parabola by the middle of the step, with the order of the problem. -/
theorem C156_half {res : Res} (hs : SchemeIs (some order) res.scheme (.parab (1 / 2)) order) (hso : res.solve_order = order) (ho : 0 < order) (hN : 0 < N) (hT : t0 < tf)
    (hr : EquiRes res (N + 1) order n_q t0 tf) (hF : Explicit F order n_q A) (hL0 : 0 ≤ L) (hL : LipA A S order n_q n_u L) (hh : h = (tf - t0) / N)
    (hhL : h * (2 + 20 * L) ≤ 1 / 2) (hM : Motions A order n_q 4 h N y w Z) (hK0 : 0 ≤ K) (hK0' : 0 ≤ K')
    (hK : ∀ i < N, ∀ j < n_q, ∀ s ∈ Icc (0 : ℝ) h, |Z i j (order + 3) s| ≤ K ∧ |Z i j (order + 4) s| ≤ K') (hd : 0 ≤ d0) :
    ∃ P, equiConstraints F res.scheme N order n_q n_u t0 tf = .ok P ∧ ∀ v c : Vars, P v c → Solution res order n_q N v c → SampleControls n_u N h v w →
      (∀ i < N, ∀ m < n_u, c.u i m = w i (1 / 2 * h) m) → InRegion S n_q N h v c Z →
      (∀ j < n_q, ∀ p < order, |v.lev order n_q p 0 j - y 0 p j| ≤ d0) →
      Follows res order n_q N t0 tf h Z y
        (fun i => 2 * (Real.exp (4 * (2 + 20 * L) * ((i + 1 : ℕ) * h)) * (d0 + (i + 1 : ℕ) * h * (8 * K + 6 * L * K + K' / 24) * h ^ 4)) + 3 * K * h ^ 4)
        (Real.exp (4 * (2 + 20 * L) * (N * h)) * (d0 + N * h * (8 * K + 6 * L * K + K' / 24) * h ^ 4)) True := by
  obtain ⟨P, hP, hv⟩ := C155_half hs hN hT hF hL0 hL hh hhL hM hK0 hK0' hK hd
  refine ⟨P, hP, fun v c hvc hsol hu huc hS h0 elib lib m n given hne hin save => ?_⟩
  obtain ⟨h1, h2⟩ := hv v c hvc hu huc hS h0
  obtain ⟨d, d1, d2, d3⟩ := interp_curves (hso ▸ hs) ho hN hT hh hr hsol h1 h2 elib lib m n given hne hin save
  exact ⟨d, d1, d2, fun _ => d3⟩

/-- C156 for "trapz", for problems of any order. -/
theorem C156_trapz {res : Res} (hs : res.scheme = "trapz") (ho : 0 < order) (hN : 0 < N) (hT : t0 < tf)
    (hr : EquiRes res (N + 1) 1 (order * n_q) t0 tf) (hF : Explicit F order n_q A) (hL1 : 1 ≤ L) (hL : LipA A S order n_q n_u L) (hh : h = (tf - t0) / N)
    (hhL : h * (2 + 2 * L) ≤ 1 / 2) (hM : Motions A order n_q 2 h N y w Z) (hK0 : 0 ≤ K)
    (hK : ∀ i < N, ∀ j < n_q, ∀ p < order, ∀ s ∈ Icc (0 : ℝ) h, |Z i j (p + 3) s| ≤ K) (hd : 0 ≤ d0) :
    ∃ P, equiConstraints F res.scheme N order n_q n_u t0 tf = .ok P ∧ ∀ v c : Vars, P v c → Solution res order n_q N v c → Chained order n_q (N + 1) v →
      SampleControls n_u N h v w → InRegion S n_q N h v c Z → (∀ j < n_q, ∀ p < order, |v.lev order n_q p 0 j - y 0 p j| ≤ d0) →
      Follows res order n_q N t0 tf h Z y
        (fun i => 2 * (Real.exp (4 * (2 + 2 * L) * ((i + 1 : ℕ) * h)) * (d0 + (i + 1 : ℕ) * h * (4 * K) * h ^ 2)) + 3 * K * h ^ 3)
        (Real.exp (4 * (2 + 2 * L) * (N * h)) * (d0 + N * h * (4 * K) * h ^ 2)) False := by
  obtain ⟨P, hP, hv⟩ := C155_trapz hN hT hF hL1 hL hh hhL hM hK0 hK hd
  refine ⟨P, hs ▸ hP, fun v c hvc hsol hch hu hS h0 elib lib m n given hne hin save => ?_⟩
  obtain ⟨h1, h2⟩ := hv v c hvc hu hS h0
  have hs' : SchemeIs (some res.solve_order) res.scheme .line 1 := by rw [hs]; exact .trapz
  obtain ⟨d, d1, d2⟩ := interp_levels hs' (by simp) ho hN hT hh hr hsol hch (fun h => absurd h (by rw [hs]; decide)) h1 h2 elib lib m n given hne hin save
  exact ⟨d, d1, d2, False.elim⟩

/-- C156 for "hs" and "hs_parab", for problems of any order. -/
theorem C156_hs {res : Res} (hs : res.scheme = "hs" ∨ res.scheme = "hs_parab") (ho : 0 < order) (hN : 0 < N) (hT : t0 < tf)
    (hr : EquiRes res (N + 1) 1 (order * n_q) t0 tf) (hF : Explicit F order n_q A) (hL1 : 1 ≤ L) (hL : LipA A S order n_q n_u L) (hh : h = (tf - t0) / N)
    (hhL : h * (2 + 20 * L) ≤ 1 / 2) (hM : Motions A order n_q 4 h N y w Z) (hK0 : 0 ≤ K) (hK0' : 0 ≤ K')
    (hK : ∀ i < N, ∀ j < n_q, ∀ p < order, ∀ s ∈ Icc (0 : ℝ) h, |Z i j (p + 4) s| ≤ K ∧ |Z i j (p + 5) s| ≤ K') (hd : 0 ≤ d0) :
    ∃ P, equiConstraints F res.scheme N order n_q n_u t0 tf = .ok P ∧ ∀ v c : Vars, P v c → Solution res order n_q N v c → Chained order n_q (N + 1) v →
      Chained order n_q N c → SampleControls n_u N h v w → (∀ i < N, ∀ m < n_u, c.u i m = w i (1 / 2 * h) m) → InRegion S n_q N h v c Z →
      (∀ j < n_q, ∀ p < order, |v.lev order n_q p 0 j - y 0 p j| ≤ d0) →
      Follows res order n_q N t0 tf h Z y
        (fun i => 2 * (Real.exp (4 * (2 + 20 * L) * ((i + 1 : ℕ) * h)) * (d0 + (i + 1 : ℕ) * h * (8 * K + 6 * L * K + K' / 24) * h ^ 4)) + 3 * K * h ^ 4)
        (Real.exp (4 * (2 + 20 * L) * (N * h)) * (d0 + N * h * (8 * K + 6 * L * K + K' / 24) * h ^ 4)) False := by
  obtain ⟨P, hP, hv⟩ := C155_hs hs hN hT hF hL1 hL hh hhL hM hK0 hK0' hK hd
  refine ⟨P, hP, fun v c hvc hsol hch hcc hu huc hS h0 elib lib m n given hne hin save => ?_⟩
  obtain ⟨h1, h2⟩ := hv v c hvc hu huc hS h0
  have hs' : SchemeIs (some res.solve_order) res.scheme (.parab (1 / 2)) 1 := by
    rcases hs with hs | hs
    · rw [hs]; exact .hs
    · rw [hs]; exact .hs_parab
  obtain ⟨d, d1, d2⟩ := interp_levels hs' (by simp; norm_num) ho hN hT hh hr hsol hch (fun _ => hcc) h1 h2 elib lib m n given hne hin save
  exact ⟨d, d1, d2, False.elim⟩
end

/-! ### A concrete case -/

/-- A result of `q'' = u` with "hs_mod" from time 0 to time 1/2: the position is the square of the time. -/
noncomputable def parabolaRes : Res where
  scheme := "hs_mod"
  scheme_mode := "equispaced"
  solve_order := 2
  x := ⟨2, [![0, 0], ![1 / 16, 1 / 2], ![1 / 4, 1]].map fun r : Fin 2 → ℝ => coord r⟩
  x_d := ⟨2, [![0, 2], ![1 / 2, 2], ![1, 2]].map fun r : Fin 2 → ℝ => coord r⟩
  u := ⟨1, [fun _ => 2, fun _ => 2, fun _ => 2]⟩
  t := [0, 1 / 4, 1 / 2]
  x_c := some ⟨2, [![1 / 64, 1 / 4], ![9 / 64, 3 / 4]].map fun r : Fin 2 → ℝ => coord r⟩
  u_c := some ⟨1, [fun _ => 2, fun _ => 2]⟩
  x_d_c := some ⟨2, [![1 / 4, 2], ![3 / 4, 2]].map fun r : Fin 2 → ℝ => coord r⟩

/-- The variables with the values of the result. -/
noncomputable def parabolaVars : Vars := ⟨rows parabolaRes.x.rows, rows parabolaRes.x_d.rows, fun _ _ => 2, fun _ _ => 0⟩

/-- The same at the centres. -/
noncomputable def parabolaCentres : Vars :=
  ⟨rows (parabolaRes.x_c.getD ⟨0, []⟩).rows, rows (parabolaRes.x_d_c.getD ⟨0, []⟩).rows, fun _ _ => 2, fun _ _ => 0⟩

/-- The square of the time, counted from the start of an interval, and its derivatives. -/
noncomputable def squares (a : ℝ) (p : ℕ) (s : ℝ) : ℝ := if p = 0 then (a + s) ^ 2 else if p = 1 then 2 * (a + s) else if p = 2 then 2 else 0

theorem squares_deriv (a : ℝ) (p : ℕ) (s : ℝ) : HasDerivAt (squares a p) (squares a (p + 1) s) s := by
  have h1 : HasDerivAt (fun s => a + s) 1 s := (hasDerivAt_id s).const_add a
  match p with
  | 0 =>
    rw [show squares a 0 = (fun s => a + s) ^ 2 by funext t; simp [squares]]
    exact (h1.pow 2).congr_deriv (by simp [squares])
  | 1 =>
    rw [show squares a 1 = fun s => 2 * (a + s) by funext t; simp [squares]]
    exact (h1.const_mul 2).congr_deriv (by simp [squares])
  | 2 =>
    rw [show squares a 2 = fun _ => 2 by funext t; simp [squares]]
    exact (hasDerivAt_const s (2 : ℝ)).congr_deriv (by simp [squares])
  | p + 3 =>
    rw [show squares a (p + 3) = fun _ => 0 by funext t; simp [squares]]
    exact (hasDerivAt_const s (0 : ℝ)).congr_deriv (by simp [squares])

/-- The hypotheses of `C156_half` hold of this result, with no error at all: the interpolation is the motion. -/
example : EquiRes parabolaRes 3 2 1 0 (1 / 2) ∧
    Follows parabolaRes 2 1 2 0 (1 / 2) (1 / 4) (fun i _ => squares (i * (1 / 4))) (fun i p _ => squares (i * (1 / 4)) p 0) (fun _ => 0) 0 True := by
  have hr : EquiRes parabolaRes 3 2 1 0 (1 / 2) := ⟨rfl, rfl, rfl, rfl, rfl, rfl, rfl, rfl, fun _ => ⟨_, _, _, rfl, rfl, rfl, rfl, rfl⟩⟩
  refine ⟨hr, ?_⟩
  obtain ⟨P, hP, h⟩ := C156_half (res := parabolaRes) (order := 2) (N := 2) (n_q := 1) (n_u := 1) (t0 := 0) (tf := 1 / 2) (h := 1 / 4)
    (F := fun x xd u _ => [xd 0 - x 1, xd 1 - u 0]) (A := fun _ u _ => u 0) (S := fun _ => True) (L := 0) (K := 0) (K' := 0) (d0 := 0)
    (y := fun i p _ => squares (i * (1 / 4)) p 0) (w := fun _ _ _ => 2) (Z := fun i _ => squares (i * (1 / 4)))
    .hs_mod rfl two_pos two_pos (by norm_num) hr
    (fun x xd u _ hz j hj => by
      obtain rfl : j = 0 := by omega
      have := hz (xd 1 - u 0) (by simp)
      simpa [sub_eq_zero] using this)
    le_rfl (fun ξ η u w d _ _ _ h j _ => by simp [h 0 one_pos]) (by norm_num) (by norm_num)
    ⟨fun i _ j _ k _ s _ => (squares_deriv _ _ _).hasDerivWithinAt, fun i _ s _ j _ => by simp [squares], fun _ _ _ _ _ _ => rfl,
      fun i _ j _ p _ => by simp only [squares]; push_cast; ring_nf⟩
    le_rfl le_rfl (fun i _ j _ s _ => by simp [squares]) le_rfl
  obtain ⟨P', hP', h'⟩ := C91_motion (fun x xd u _ => [xd 0 - x 1, xd 1 - u 0]) (scheme := "hs_mod") (order := 2) .hs_mod 2 1 1 two_pos
    (t_start := 0) (t_end := 1 / 2) (by norm_num)
  obtain rfl : P = P' := by
    have := hP.symm.trans hP'
    injection this
  have hv : P parabolaVars parabolaCentres := by
    rw [h']
    refine ⟨fun i hi j hj => ⟨squares (i * (1 / 4)), ⟨squares_deriv _, fun p hp => ?_, ⟨0, 0, fun τ => ?_⟩, ?_, ?_⟩, fun p hp => ?_, fun θ hθ p hp => ?_⟩, fun i hi => ?_,
      fun θ hθ => ⟨fun i hi => ?_, fun _ i _ m _ => ?_⟩⟩
    · obtain rfl : j = 0 := by omega
      interval_cases i <;> interval_cases p <;> norm_num [squares, Vars.lev, parabolaVars, parabolaRes, rows, coord]
    · obtain rfl : j = 0 := by omega
      interval_cases i <;> norm_num [squares, Vars.lev, parabolaVars, parabolaRes, rows, coord]
    · obtain rfl : j = 0 := by omega
      interval_cases i <;> norm_num [squares, Vars.lev, parabolaCentres, parabolaRes, rows, coord]
    · obtain rfl : j = 0 := by omega
      interval_cases i <;> norm_num [squares, Vars.lev, parabolaVars, parabolaRes, rows, coord]
    · obtain rfl : j = 0 := by omega
      interval_cases i <;> interval_cases p <;> norm_num [squares, Vars.lev, parabolaVars, parabolaRes, rows, coord]
    · obtain rfl : j = 0 := by omega
      injection hθ with hθ
      subst hθ
      interval_cases i <;> interval_cases p <;> norm_num [squares, Vars.lev, parabolaCentres, parabolaRes, rows, coord]
    · interval_cases i <;> norm_num [zero, parabolaVars, parabolaRes, rows, coord]
    · interval_cases i <;> norm_num [zero, parabolaCentres, parabolaRes, rows, coord]
    · simp only [parabolaCentres, parabolaVars]
      ring
  have := h parabolaVars parabolaCentres hv ⟨fun _ _ _ _ => rfl, fun _ _ _ _ => rfl, fun _ _ _ _ _ => rfl⟩ (fun _ _ _ _ => ⟨rfl, rfl⟩) (fun _ _ _ _ => rfl)
    ⟨fun _ _ => trivial, fun _ _ => trivial, fun _ _ _ _ => trivial⟩ (fun j hj p hp => by
      obtain rfl : j = 0 := by omega
      interval_cases p <;> norm_num [squares, Vars.lev, parabolaVars, parabolaRes, rows, coord])
  simpa using this

end Chords.Conv
