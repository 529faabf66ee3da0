import Verif.Props.Conv

/-! # C154: closeness to the motion for the second order schemes -/

namespace Chords.Conv
open Set Chords.Integ

section
variable {V U : Type} [NormedAddCommGroup V] [NormedSpace ℝ V]

/-- The accelerations have the Lipschitz constant `L` in a region of positions and velocities. -/
def AccLipIn (G : V × V → U → V × V) (S : Set (V × V)) (L : ℝ) : Prop := ∀ a ∈ S, ∀ b ∈ S, ∀ u, ‖(G a u).2 - (G b u).2‖ ≤ L * ‖a - b‖

/-- The first half of the derivative of the state is the second half of the state. -/
def IsSecondOrder (G : V × V → U → V × V) : Prop := ∀ x u, (G x u).1 = x.2

/-- The position and its derivatives. -/
def pos (D : ℕ → ℝ → V × V) : ℕ → ℝ → V
  | 0, s => (D 0 s).1
  | k + 1, s => (D k s).2

variable {G : V × V → U → V × V} {S : Set (V × V)} {L K K' h : ℝ} {N r : ℕ} {x y : ℕ → V × V} {w : ℕ → ℝ → U} {D : ℕ → ℕ → ℝ → V × V}

theorem pos_tower (hM : Moves G r h N y w D) (hG : IsSecondOrder G) (hr : 0 < r) {i : ℕ} (hi : i < N) : Tower (pos (D i)) (r + 1) h := by
  intro k hk s hs
  cases k with
  | zero =>
    have := (ContinuousLinearMap.fst ℝ V V).hasFDerivAt.comp_hasDerivWithinAt s (hM.tower i hi 0 hr s hs)
    have e : (ContinuousLinearMap.fst ℝ V V) (D i (0 + 1) s) = pos (D i) (0 + 1) s := by
      simpa [pos, hM.dyn i hi s hs] using hG _ _
    rw [e] at this
    exact this
  | succ k =>
    exact (ContinuousLinearMap.snd ℝ V V).hasFDerivAt.comp_hasDerivWithinAt s (hM.tower i hi k (by omega) s hs)

/-- What the proofs need about one interval. -/
private structure At (hy0 : V × V) (y' : V × V) (T : ℕ → ℝ → V) (G : V × V → U → V × V) (w : ℝ → U) (h : ℝ) : Prop where
  q0 : T 0 0 = hy0.1
  v0 : T 1 0 = hy0.2
  a0 : T 2 0 = (G hy0 (w 0)).2
  q1 : T 0 h = y'.1
  v1 : T 1 h = y'.2
  a1 : T 2 h = (G y' (w h)).2

private theorem at_of (hM : Moves G r h N y w D) (hh : 0 ≤ h) {i : ℕ} (hi : i < N) : At (y i) (y (i + 1)) (pos (D i)) G (w i) h := by
  have m0 : (0 : ℝ) ∈ Icc 0 h := ⟨le_rfl, hh⟩
  have mh : h ∈ Icc 0 h := ⟨hh, le_rfl⟩
  constructor
  · simp [pos, hM.start i hi]
  · simp [pos, hM.start i hi]
  · simp [pos, hM.dyn i hi 0 m0, hM.start i hi]
  · simp [pos, hM.stop i hi]
  · simp [pos, hM.stop i hi]
  · simp [pos, hM.dyn i hi h mh, hM.stop i hi]

private theorem pair_le {a : V × V} {b : ℝ} (h1 : ‖a.1‖ ≤ b) (h2 : ‖a.2‖ ≤ b) : ‖a‖ ≤ b := by
  rw [Prod.norm_def]
  exact max_le h1 h2

private theorem shift_tower {T : ℕ → ℝ → V} {n : ℕ} (hT : Tower T (n + 1) h) : Tower (fun k => T (k + 1)) n h :=
  fun k hk s hs => hT (k + 1) (by omega) s hs

/-- Solutions of the second order trapezoidal scheme. -/
theorem trapzMod_near [AddCommGroup U] [Module ℝ U] (hM : Moves G 3 h N y w D) (hG : IsSecondOrder G) (hL0 : 0 ≤ L) (hL : AccLipIn G S L) (hh : 0 ≤ h)
    (hhL : h * (1 + 2 * L) ≤ 1 / 2) (hK : ∀ i < N, ∀ s ∈ Icc (0 : ℝ) h, ‖D i 3 s‖ ≤ K) (hx : ∀ i ≤ N, x i ∈ S) (hy : ∀ i ≤ N, y i ∈ S)
    (hs : ∀ i < N, trapzModRestr (x i) (x (i + 1)) (w i 0) (w i h) G h = 0) :
    ∀ i ≤ N, ‖x i - y i‖ ≤ Real.exp (4 * (1 + 2 * L) * (i * h)) * (‖x 0 - y 0‖ + i * h * K * h ^ 2) := by
  intro i hi
  rcases Nat.eq_zero_or_pos N with h0 | hN
  · obtain rfl : i = 0 := by omega
    simp
  have hK0 : 0 ≤ K := (norm_nonneg _).trans (hK 0 hN 0 ⟨le_rfl, hh⟩)
  have hz : 0 ≤ h * L := by positivity
  have hh2 : h ≤ 1 / 2 := by linarith
  have := gronwall (δ := fun i => ‖x i - y i‖) (h := h) (L := 1 + 2 * L) (τ := 5 / 12 * K * h ^ 3) (n := N) (fun _ => norm_nonneg _) hh (by positivity)
    (by positivity) hhL ?_ i hi
  · refine this.trans (mul_le_mul_of_nonneg_left ?_ (Real.exp_pos _).le)
    have : 0 ≤ i * h * K * h ^ 2 := by positivity
    nlinarith
  · intro i hi
    have he := hs i hi
    have T := pos_tower hM hG (by omega) hi
    obtain ⟨q0, v0, a0, q1, v1, a1⟩ := at_of hM hh hi
    have hK4 : ∀ s ∈ Icc (0 : ℝ) h, ‖pos (D i) 4 s‖ ≤ K := fun s hs => (norm_snd_le (D i 3 s)).trans (hK i hi s hs)
    have lq := trapzMod_local hh T hK4
    have lv := trapz_local (D := fun k => pos (D i) (k + 1)) hh (shift_tower T) hK4
    simp only [zero_add, Nat.reduceAdd, q0, v0, a0, q1, v1, a1] at lq lv
    have e0 := hL (x i) (hx i (by omega)) (y i) (hy i (by omega)) (w i 0)
    have e1 := hL (x (i + 1)) (hx (i + 1) (by omega)) (y (i + 1)) (hy (i + 1) (by omega)) (w i h)
    simp only [trapzModRestr, sub_eq_zero] at he
    have heq := congrArg Prod.fst he
    have hev := congrArg Prod.snd he
    dsimp only at heq hev
    have n1 := norm_fst_le (x i - y i)
    have n2 := norm_snd_le (x i - y i)
    rw [Prod.fst_sub] at n1
    rw [Prod.snd_sub] at n2
    obtain ⟨f, hf⟩ : ∃ a, a = (G (x i) (w i 0)).2 := ⟨_, rfl⟩
    obtain ⟨f', hf'⟩ : ∃ a, a = (G (x (i + 1)) (w i h)).2 := ⟨_, rfl⟩
    obtain ⟨g, hg⟩ : ∃ a, a = (G (y i) (w i 0)).2 := ⟨_, rfl⟩
    obtain ⟨g', hg'⟩ : ∃ a, a = (G (y (i + 1)) (w i h)).2 := ⟨_, rfl⟩
    rw [← hf, ← hg] at e0
    rw [← hf', ← hg'] at e1
    rw [← hf, ← hf'] at heq hev
    rw [← hg, ← hg'] at lq lv
    obtain ⟨d, hd⟩ : ∃ d, d = ‖x i - y i‖ := ⟨_, rfl⟩
    obtain ⟨d', hd'⟩ : ∃ d, d = ‖x (i + 1) - y (i + 1)‖ := ⟨_, rfl⟩
    have nd : 0 ≤ d := hd ▸ norm_nonneg _
    have nd' : 0 ≤ d' := hd' ▸ norm_nonneg _
    rw [← hd] at e0 n1 n2 ⊢
    rw [← hd'] at e1
    nth_rewrite 2 [← hd']
    have z1 : 0 ≤ h * L * d := by positivity
    have z2 : 0 ≤ h * L * d' := by positivity
    have z3 : 0 ≤ K * h ^ 3 := by positivity
    refine pair_le ?_ ?_
    · rw [Prod.fst_sub, heq]
      have e : (x i).1 + h • (x i).2 + (h ^ 2 / 6) • (f' + (2 : ℝ) • f) - (y (i + 1)).1
          = ((x i).1 - (y i).1) + h • ((x i).2 - (y i).2) + (h ^ 2 / 6) • ((f' - g') + (2 : ℝ) • (f - g))
            - ((y (i + 1)).1 - ((y i).1 + h • (y i).2 + (h ^ 2 / 6) • (g' + (2 : ℝ) • g))) := by module
      rw [e]
      refine (norm_sub_le _ _).trans ((add_le_add ((norm_add_le _ _).trans (add_le_add ((norm_add_le _ _).trans (add_le_add n1 (norm_smul_le hh n2)))
        (norm_smul_le (by positivity) ((norm_add_le _ _).trans (add_le_add e1 (norm_smul_le (by norm_num) e0)))))) lq).trans ?_)
      have y1 : h * (h * L * d) ≤ 1 / 2 * (h * L * d) := mul_le_mul_of_nonneg_right hh2 z1
      have y2 : h * (h * L * d') ≤ 1 / 2 * (h * L * d') := mul_le_mul_of_nonneg_right hh2 z2
      have y3 : h * (K * h ^ 3) ≤ 1 / 2 * (K * h ^ 3) := mul_le_mul_of_nonneg_right hh2 z3
      have y4 : 0 ≤ h * d' := by positivity
      linarith
    · rw [Prod.snd_sub, hev]
      have e : (x i).2 + (h / 2) • (f + f') - (y (i + 1)).2
          = ((x i).2 - (y i).2) + (h / 2) • ((f - g) + (f' - g')) - ((y (i + 1)).2 - ((y i).2 + (h / 2) • (g + g'))) := by module
      rw [e]
      refine (norm_sub_le _ _).trans ((add_le_add ((norm_add_le _ _).trans (add_le_add n2
        (norm_smul_le (by positivity) ((norm_add_le _ _).trans (add_le_add e0 e1))))) lv).trans ?_)
      have y3 : 0 ≤ h * d := by positivity
      have y4 : 0 ≤ h * d' := by positivity
      linarith

/-- Solutions of the second order Hermite-Simpson scheme, with any controls in the middle of the intervals. -/
theorem hsMod_near [AddCommGroup U] [Module ℝ U] (hM : Moves G 5 h N y w D) (hG : IsSecondOrder G) (hL0 : 0 ≤ L) (hL : AccLipIn G S L) (hh : 0 ≤ h)
    (hhL : h * (1 + 2 * L) ≤ 1 / 2) (hK : ∀ i < N, ∀ s ∈ Icc (0 : ℝ) h, ‖D i 4 s‖ ≤ K ∧ ‖D i 5 s‖ ≤ K') (hx : ∀ i ≤ N, x i ∈ S)
    (hy : ∀ i < N, ∀ s ∈ Icc (0 : ℝ) h, D i 0 s ∈ S)
    (hc : ∀ i < N, hsModXc (x i) (x (i + 1)) (G (x i) (w i 0)).2 (G (x (i + 1)) (w i h)).2 h ∈ S)
    (hs : ∀ i < N, hsModParabRestr (x i) (x (i + 1)) (w i 0) (w i h) G h (w i (h / 2)) = 0) :
    ∀ i ≤ N, ‖x i - y i‖ ≤ Real.exp (4 * (1 + 2 * L) * (i * h)) * (‖x 0 - y 0‖ + i * h * ((K + K') / 24 + L * K / 12) * h ^ 4) := by
  intro i hi
  rcases Nat.eq_zero_or_pos N with h0 | hN
  · obtain rfl : i = 0 := by omega
    simp
  have hK0 : 0 ≤ K := (norm_nonneg _).trans (hK 0 hN 0 ⟨le_rfl, hh⟩).1
  have hK0' : 0 ≤ K' := (norm_nonneg _).trans (hK 0 hN 0 ⟨le_rfl, hh⟩).2
  have hz : 0 ≤ h * L := by positivity
  have hh2 : h ≤ 1 / 2 := by linarith
  have hz2 : h * L ≤ 1 / 4 := by linarith
  have := gronwall (δ := fun i => ‖x i - y i‖) (h := h) (L := 1 + 2 * L) (τ := ((K + K') / 48 + L * K / 24) * h ^ 5) (n := N) (fun _ => norm_nonneg _) hh (by positivity)
    (by positivity) hhL ?_ i hi
  · refine this.trans (mul_le_mul_of_nonneg_left (le_of_eq ?_) (Real.exp_pos _).le)
    ring
  · intro i hi
    have he := hs i hi
    have T := pos_tower hM hG (by omega) hi
    have mc : h / 2 ∈ Icc 0 h := ⟨by linarith, by linarith⟩
    have y0 := hy i hi 0 ⟨le_rfl, hh⟩
    have y1 := hy i hi h ⟨hh, le_rfl⟩
    have yc := hy i hi _ mc
    rw [hM.start i hi] at y0
    rw [hM.stop i hi] at y1
    obtain ⟨q0, v0, a0, q1, v1, a1⟩ := at_of hM hh hi
    have qc : pos (D i) 0 (h / 2) = (D i 0 (h / 2)).1 := rfl
    have vc : pos (D i) 1 (h / 2) = (D i 0 (h / 2)).2 := rfl
    have ac : pos (D i) 2 (h / 2) = (G (D i 0 (h / 2)) (w i (h / 2))).2 := by simp [pos, hM.dyn i hi _ mc]
    have hK5 : ∀ s ∈ Icc (0 : ℝ) h, ‖pos (D i) 5 s‖ ≤ K := fun s hs => (norm_snd_le (D i 4 s)).trans (hK i hi s hs).1
    have hK6 : ∀ s ∈ Icc (0 : ℝ) h, ‖pos (D i) 6 s‖ ≤ K' := fun s hs => (norm_snd_le (D i 5 s)).trans (hK i hi s hs).2
    have lq := hsMod_local hh (T.mono (by omega)) hK5
    have lv := simpson_local (D := fun k => pos (D i) (k + 1)) hh (shift_tower T) hK6
    have cq := hsMod_middle hh (T.mono (by omega)) hK5
    have cv := middle_local (D := fun k => pos (D i) (k + 1)) hh (shift_tower (T.mono (by omega))) hK5
    simp only [zero_add, Nat.reduceAdd, q0, v0, a0, q1, v1, a1, qc, vc, ac] at lq lv cq cv
    obtain ⟨yv, hyv⟩ : ∃ z, z = D i 0 (h / 2) := ⟨_, rfl⟩
    have hc := hc i hi
    simp only [hsModParabRestr, sub_eq_zero] at he
    obtain ⟨xc, hxc⟩ : ∃ z, z = hsModXc (x i) (x (i + 1)) (G (x i) (w i 0)).2 (G (x (i + 1)) (w i h)).2 h := ⟨_, rfl⟩
    rw [← hxc] at he hc
    rw [← hyv] at lq lv cq cv yc
    have e0 := hL (x i) (hx i (by omega)) (y i) y0 (w i 0)
    have e1 := hL (x (i + 1)) (hx (i + 1) (by omega)) (y (i + 1)) y1 (w i h)
    have ec := hL xc hc yv yc (w i (h / 2))
    have heq := congrArg Prod.fst he
    have hev := congrArg Prod.snd he
    have hcq := congrArg Prod.fst hxc
    have hcv := congrArg Prod.snd hxc
    simp only [hsModXc] at heq hev hcq hcv
    have n1 := norm_fst_le (x i - y i)
    have n2 := norm_snd_le (x i - y i)
    have n3 := norm_fst_le (x (i + 1) - y (i + 1))
    have n4 := norm_snd_le (x (i + 1) - y (i + 1))
    rw [Prod.fst_sub] at n1 n3
    rw [Prod.snd_sub] at n2 n4
    obtain ⟨f, hf⟩ : ∃ a, a = (G (x i) (w i 0)).2 := ⟨_, rfl⟩
    obtain ⟨f', hf'⟩ : ∃ a, a = (G (x (i + 1)) (w i h)).2 := ⟨_, rfl⟩
    obtain ⟨fc, hfc⟩ : ∃ a, a = (G xc (w i (h / 2))).2 := ⟨_, rfl⟩
    obtain ⟨g, hg⟩ : ∃ a, a = (G (y i) (w i 0)).2 := ⟨_, rfl⟩
    obtain ⟨g', hg'⟩ : ∃ a, a = (G (y (i + 1)) (w i h)).2 := ⟨_, rfl⟩
    obtain ⟨gc, hgc⟩ : ∃ a, a = (G yv (w i (h / 2))).2 := ⟨_, rfl⟩
    rw [← hf, ← hg] at e0
    rw [← hf', ← hg'] at e1
    rw [← hfc, ← hgc] at ec
    simp only [← hf, ← hf', ← hfc] at heq hev hcq hcv
    simp only [← hg, ← hg', ← hgc] at lq lv cq cv
    obtain ⟨d, hd⟩ : ∃ d, d = ‖x i - y i‖ := ⟨_, rfl⟩
    obtain ⟨d', hd'⟩ : ∃ d, d = ‖x (i + 1) - y (i + 1)‖ := ⟨_, rfl⟩
    have nd : 0 ≤ d := hd ▸ norm_nonneg _
    have nd' : 0 ≤ d' := hd' ▸ norm_nonneg _
    rw [← hd] at e0 n1 n2 ⊢
    rw [← hd'] at e1 n3 n4
    nth_rewrite 2 [← hd']
    have z1 : 0 ≤ h * L * d := by positivity
    have z2 : 0 ≤ h * L * d' := by positivity
    have z3 : 0 ≤ K * h ^ 4 := by positivity
    have z4 : h * L * d ≤ 1 / 4 * d := mul_le_mul_of_nonneg_right hz2 nd
    have z5 : h * L * d' ≤ 1 / 4 * d' := mul_le_mul_of_nonneg_right hz2 nd'
    have z6 : h * d ≤ 1 / 2 * d := mul_le_mul_of_nonneg_right hh2 nd
    have z7 : h * d' ≤ 1 / 2 * d' := mul_le_mul_of_nonneg_right hh2 nd'
    have z8 : h * (h * L * d) ≤ 1 / 2 * (h * L * d) := mul_le_mul_of_nonneg_right hh2 z1
    have z9 : h * (h * L * d') ≤ 1 / 2 * (h * L * d') := mul_le_mul_of_nonneg_right hh2 z2
    have z10 : h * (K * h ^ 4) ≤ 1 / 2 * (K * h ^ 4) := mul_le_mul_of_nonneg_right hh2 z3
    have z11 : h * L * (K * h ^ 4) ≤ 1 / 4 * (K * h ^ 4) := mul_le_mul_of_nonneg_right hz2 z3
    have z12 : 0 ≤ h * L * (K * h ^ 4) := by positivity
    have z13 : h * (h * L * (K * h ^ 4)) ≤ 1 / 2 * (h * L * (K * h ^ 4)) := mul_le_mul_of_nonneg_right hh2 z12
    have z14 : 0 ≤ h * d := by positivity
    have z15 : 0 ≤ h * d' := by positivity
    have mid : ‖xc - yv‖ ≤ 5 / 4 * (d + d') + K * h ^ 4 / 16 := by
      refine pair_le ?_ ?_
      · rw [Prod.fst_sub, hcq]
        have e : (1 / 16 : ℝ) • ((13 : ℝ) • (x i).1 + (3 : ℝ) • (x (i + 1)).1) + (5 * h / 16) • (x i).2 + (h ^ 2 / 96) • ((4 : ℝ) • f - f') - yv.1
            = (13 / 16 : ℝ) • ((x i).1 - (y i).1) + (3 / 16 : ℝ) • ((x (i + 1)).1 - (y (i + 1)).1) + (5 * h / 16) • ((x i).2 - (y i).2)
              + (4 * h ^ 2 / 96) • (f - g) - (h ^ 2 / 96) • (f' - g')
              - (yv.1 - ((1 / 16 : ℝ) • ((13 : ℝ) • (y i).1 + (3 : ℝ) • (y (i + 1)).1) + (5 * h / 16) • (y i).2 + (h ^ 2 / 96) • ((4 : ℝ) • g - g'))) := by
          module
        rw [e]
        refine (norm_sub_le _ _).trans ((add_le_add ((norm_sub_le _ _).trans (add_le_add ((norm_add_le _ _).trans (add_le_add ((norm_add_le _ _).trans
          (add_le_add ((norm_add_le _ _).trans (add_le_add (norm_smul_le (by norm_num) n1) (norm_smul_le (by norm_num) n3)))
          (norm_smul_le (by positivity) n2))) (norm_smul_le (by positivity) e0))) (norm_smul_le (by positivity) e1))) cq).trans ?_)
        linarith
      · rw [Prod.snd_sub, hcv]
        have e : (1 / 2 : ℝ) • ((x i).2 + (x (i + 1)).2) + (h / 8) • (f - f') - yv.2
            = (1 / 2 : ℝ) • ((x i).2 - (y i).2) + (1 / 2 : ℝ) • ((x (i + 1)).2 - (y (i + 1)).2) + (h / 8) • (f - g) - (h / 8) • (f' - g')
              - (yv.2 - ((1 / 2 : ℝ) • ((y i).2 + (y (i + 1)).2) + (h / 8) • (g - g'))) := by module
        rw [e]
        refine (norm_sub_le _ _).trans ((add_le_add ((norm_sub_le _ _).trans (add_le_add ((norm_add_le _ _).trans (add_le_add ((norm_add_le _ _).trans
          (add_le_add (norm_smul_le (by norm_num) n2) (norm_smul_le (by norm_num) n4))) (norm_smul_le (by positivity) e0)))
          (norm_smul_le (by positivity) e1))) cv).trans ?_)
        linarith
    have ec' := ec.trans (mul_le_mul_of_nonneg_left mid hL0)
    refine pair_le ?_ ?_
    · rw [Prod.fst_sub, heq]
      have e : (x i).1 + h • (x i).2 + (h ^ 2 / 6) • (f + (2 : ℝ) • fc) - (y (i + 1)).1
          = ((x i).1 - (y i).1) + h • ((x i).2 - (y i).2) + (h ^ 2 / 6) • ((f - g) + (2 : ℝ) • (fc - gc))
            - ((y (i + 1)).1 - ((y i).1 + h • (y i).2 + (h ^ 2 / 6) • (g + (2 : ℝ) • gc))) := by module
      rw [e]
      refine (norm_sub_le _ _).trans ((add_le_add ((norm_add_le _ _).trans (add_le_add ((norm_add_le _ _).trans (add_le_add n1 (norm_smul_le hh n2)))
        (norm_smul_le (by positivity) ((norm_add_le _ _).trans (add_le_add e0 (norm_smul_le (by norm_num) ec')))))) lq).trans ?_)
      have : 0 ≤ K' * h ^ 5 := by positivity
      linarith
    · rw [Prod.snd_sub, hev]
      have e : (x i).2 + (h / 6) • (f + (4 : ℝ) • fc + f') - (y (i + 1)).2
          = ((x i).2 - (y i).2) + (h / 6) • ((f - g) + (4 : ℝ) • (fc - gc) + (f' - g'))
            - ((y (i + 1)).2 - ((y i).2 + (h / 6) • (g + (4 : ℝ) • gc + g'))) := by module
      rw [e]
      refine (norm_sub_le _ _).trans ((add_le_add ((norm_add_le _ _).trans (add_le_add n2 (norm_smul_le (by positivity) ((norm_add_le _ _).trans
        (add_le_add ((norm_add_le _ _).trans (add_le_add e0 (norm_smul_le (by norm_num) ec'))) e1))))) lv).trans ?_)
      have : 0 ≤ K * h ^ 5 := by positivity
      linarith

/-- Solutions of the scheme with the inner point at two fifths, with any controls at the inner points. -/
theorem hsj_near [AddCommGroup U] [Module ℝ U] (hM : Moves G 4 h N y w D) (hG : IsSecondOrder G) (hL0 : 0 ≤ L) (hL : AccLipIn G S L) (hh : 0 ≤ h)
    (hhL : h * (1 + 2 * L) ≤ 1 / 2) (hK : ∀ i < N, ∀ s ∈ Icc (0 : ℝ) h, ‖D i 4 s‖ ≤ K) (hx : ∀ i ≤ N, x i ∈ S)
    (hy : ∀ i < N, ∀ s ∈ Icc (0 : ℝ) h, D i 0 s ∈ S)
    (hc : ∀ i < N, hsjXc (x i) (x (i + 1)) (G (x i) (w i 0)).2 (G (x (i + 1)) (w i h)).2 h ∈ S)
    (hs : ∀ i < N, hsjParabRestr (x i) (x (i + 1)) (w i 0) (w i h) G h (w i (2 * h / 5)) = 0) :
    ∀ i ≤ N, ‖x i - y i‖ ≤ Real.exp (4 * (1 + 2 * L) * (i * h)) * (‖x 0 - y 0‖ + i * h * (K / 2) * h ^ 3) := by
  intro i hi
  rcases Nat.eq_zero_or_pos N with h0 | hN
  · obtain rfl : i = 0 := by omega
    simp
  have hK0 : 0 ≤ K := (norm_nonneg _).trans (hK 0 hN 0 ⟨le_rfl, hh⟩)
  have hz : 0 ≤ h * L := by positivity
  have hh2 : h ≤ 1 / 2 := by linarith
  have hz2 : h * L ≤ 1 / 4 := by linarith
  have := gronwall (δ := fun i => ‖x i - y i‖) (h := h) (L := 1 + 2 * L) (τ := K * h ^ 4 / 4) (n := N) (fun _ => norm_nonneg _) hh (by positivity)
    (by positivity) hhL ?_ i hi
  · refine this.trans (mul_le_mul_of_nonneg_left (le_of_eq ?_) (Real.exp_pos _).le)
    ring
  · intro i hi
    have he := hs i hi
    have T := pos_tower hM hG (by omega) hi
    have mc : 2 * h / 5 ∈ Icc 0 h := ⟨by linarith, by linarith⟩
    have y0 := hy i hi 0 ⟨le_rfl, hh⟩
    have y1 := hy i hi h ⟨hh, le_rfl⟩
    have yc := hy i hi _ mc
    rw [hM.start i hi] at y0
    rw [hM.stop i hi] at y1
    obtain ⟨q0, v0, a0, q1, v1, a1⟩ := at_of hM hh hi
    have qc : pos (D i) 0 (2 * h / 5) = (D i 0 (2 * h / 5)).1 := rfl
    have vc : pos (D i) 1 (2 * h / 5) = (D i 0 (2 * h / 5)).2 := rfl
    have ac : pos (D i) 2 (2 * h / 5) = (G (D i 0 (2 * h / 5)) (w i (2 * h / 5))).2 := by simp [pos, hM.dyn i hi _ mc]
    have hK5 : ∀ s ∈ Icc (0 : ℝ) h, ‖pos (D i) 5 s‖ ≤ K := fun s hs => (norm_snd_le (D i 4 s)).trans (hK i hi s hs)
    have lq := hsj_local hh T hK5
    have lv := hsj_local_v (D := fun k => pos (D i) (k + 1)) hh (shift_tower T) hK5
    have cq := hsj_middle hh T hK5
    have cv := hsj_middle_v (D := fun k => pos (D i) (k + 1)) hh (shift_tower T) hK5
    simp only [zero_add, Nat.reduceAdd, q0, v0, a0, q1, v1, a1, qc, vc, ac] at lq lv cq cv
    obtain ⟨yv, hyv⟩ : ∃ z, z = D i 0 (2 * h / 5) := ⟨_, rfl⟩
    have hc := hc i hi
    simp only [hsjParabRestr, sub_eq_zero] at he
    obtain ⟨xc, hxc⟩ : ∃ z, z = hsjXc (x i) (x (i + 1)) (G (x i) (w i 0)).2 (G (x (i + 1)) (w i h)).2 h := ⟨_, rfl⟩
    rw [← hxc] at he hc
    rw [← hyv] at lq lv cq cv yc
    have e0 := hL (x i) (hx i (by omega)) (y i) y0 (w i 0)
    have e1 := hL (x (i + 1)) (hx (i + 1) (by omega)) (y (i + 1)) y1 (w i h)
    have ec := hL xc hc yv yc (w i (2 * h / 5))
    have heq := congrArg Prod.fst he
    have hev := congrArg Prod.snd he
    have hcq := congrArg Prod.fst hxc
    have hcv := congrArg Prod.snd hxc
    simp only [hsjXc] at heq hev hcq hcv
    have n1 := norm_fst_le (x i - y i)
    have n2 := norm_snd_le (x i - y i)
    have n3 := norm_fst_le (x (i + 1) - y (i + 1))
    have n4 := norm_snd_le (x (i + 1) - y (i + 1))
    rw [Prod.fst_sub] at n1 n3
    rw [Prod.snd_sub] at n2 n4
    obtain ⟨f, hf⟩ : ∃ a, a = (G (x i) (w i 0)).2 := ⟨_, rfl⟩
    obtain ⟨f', hf'⟩ : ∃ a, a = (G (x (i + 1)) (w i h)).2 := ⟨_, rfl⟩
    obtain ⟨fc, hfc⟩ : ∃ a, a = (G xc (w i (2 * h / 5))).2 := ⟨_, rfl⟩
    obtain ⟨g, hg⟩ : ∃ a, a = (G (y i) (w i 0)).2 := ⟨_, rfl⟩
    obtain ⟨g', hg'⟩ : ∃ a, a = (G (y (i + 1)) (w i h)).2 := ⟨_, rfl⟩
    obtain ⟨gc, hgc⟩ : ∃ a, a = (G yv (w i (2 * h / 5))).2 := ⟨_, rfl⟩
    rw [← hf, ← hg] at e0
    rw [← hf', ← hg'] at e1
    rw [← hfc, ← hgc] at ec
    simp only [← hf, ← hf', ← hfc] at heq hev hcq hcv
    simp only [← hg, ← hg', ← hgc] at lq lv cq cv
    obtain ⟨d, hd⟩ : ∃ d, d = ‖x i - y i‖ := ⟨_, rfl⟩
    obtain ⟨d', hd'⟩ : ∃ d, d = ‖x (i + 1) - y (i + 1)‖ := ⟨_, rfl⟩
    have nd : 0 ≤ d := hd ▸ norm_nonneg _
    have nd' : 0 ≤ d' := hd' ▸ norm_nonneg _
    rw [← hd] at e0 n1 n2 ⊢
    rw [← hd'] at e1 n3 n4
    nth_rewrite 2 [← hd']
    have z1 : 0 ≤ h * L * d := by positivity
    have z2 : 0 ≤ h * L * d' := by positivity
    have z3 : 0 ≤ K * h ^ 4 := by positivity
    have z4 : h * L * d ≤ 1 / 4 * d := mul_le_mul_of_nonneg_right hz2 nd
    have z5 : h * L * d' ≤ 1 / 4 * d' := mul_le_mul_of_nonneg_right hz2 nd'
    have z6 : h * d ≤ 1 / 2 * d := mul_le_mul_of_nonneg_right hh2 nd
    have z7 : h * d' ≤ 1 / 2 * d' := mul_le_mul_of_nonneg_right hh2 nd'
    have z8 : h * (h * L * d) ≤ 1 / 2 * (h * L * d) := mul_le_mul_of_nonneg_right hh2 z1
    have z9 : h * (h * L * d') ≤ 1 / 2 * (h * L * d') := mul_le_mul_of_nonneg_right hh2 z2
    have z10 : h * (K * h ^ 4) ≤ 1 / 2 * (K * h ^ 4) := mul_le_mul_of_nonneg_right hh2 z3
    have z11 : h * L * (K * h ^ 4) ≤ 1 / 4 * (K * h ^ 4) := mul_le_mul_of_nonneg_right hz2 z3
    have z12 : 0 ≤ h * L * (K * h ^ 4) := by positivity
    have z13 : h * (h * L * (K * h ^ 4)) ≤ 1 / 2 * (h * L * (K * h ^ 4)) := mul_le_mul_of_nonneg_right hh2 z12
    have z14 : 0 ≤ h * d := by positivity
    have z15 : 0 ≤ h * d' := by positivity
    have mid : ‖xc - yv‖ ≤ 5 / 4 * (d + d') + K * h ^ 4 / 16 := by
      refine pair_le ?_ ?_
      · rw [Prod.fst_sub, hcq]
        have e : (x i).1 + (h / 625) • ((218 : ℝ) • (x i).2 + (32 : ℝ) • (x (i + 1)).2) + (h ^ 2 / 1875) • ((82 : ℝ) • f - (28 : ℝ) • f') - yv.1
            = ((x i).1 - (y i).1) + (218 * h / 625) • ((x i).2 - (y i).2) + (32 * h / 625) • ((x (i + 1)).2 - (y (i + 1)).2)
              + (82 * h ^ 2 / 1875) • (f - g) - (28 * h ^ 2 / 1875) • (f' - g')
              - (yv.1 - ((y i).1 + (h / 625) • ((218 : ℝ) • (y i).2 + (32 : ℝ) • (y (i + 1)).2) + (h ^ 2 / 1875) • ((82 : ℝ) • g - (28 : ℝ) • g'))) := by
          module
        rw [e]
        refine (norm_sub_le _ _).trans ((add_le_add ((norm_sub_le _ _).trans (add_le_add ((norm_add_le _ _).trans (add_le_add ((norm_add_le _ _).trans
          (add_le_add ((norm_add_le _ _).trans (add_le_add n1 (norm_smul_le (by positivity) n2)))
          (norm_smul_le (by positivity) n4))) (norm_smul_le (by positivity) e0))) (norm_smul_le (by positivity) e1))) cq).trans ?_)
        linarith
      · rw [Prod.snd_sub, hcv]
        have e : (1 / 125 : ℝ) • ((81 : ℝ) • (x i).2 + (44 : ℝ) • (x (i + 1)).2) + (h / 125) • ((18 : ℝ) • f - (12 : ℝ) • f') - yv.2
            = (81 / 125 : ℝ) • ((x i).2 - (y i).2) + (44 / 125 : ℝ) • ((x (i + 1)).2 - (y (i + 1)).2) + (18 * h / 125) • (f - g)
              - (12 * h / 125) • (f' - g')
              - (yv.2 - ((1 / 125 : ℝ) • ((81 : ℝ) • (y i).2 + (44 : ℝ) • (y (i + 1)).2) + (h / 125) • ((18 : ℝ) • g - (12 : ℝ) • g'))) := by module
        rw [e]
        refine (norm_sub_le _ _).trans ((add_le_add ((norm_sub_le _ _).trans (add_le_add ((norm_add_le _ _).trans (add_le_add ((norm_add_le _ _).trans
          (add_le_add (norm_smul_le (by norm_num) n2) (norm_smul_le (by norm_num) n4))) (norm_smul_le (by positivity) e0)))
          (norm_smul_le (by positivity) e1))) cv).trans ?_)
        linarith
    have ec' := ec.trans (mul_le_mul_of_nonneg_left mid hL0)
    refine pair_le ?_ ?_
    · rw [Prod.fst_sub, heq]
      have e : (x i).1 + h • (x i).2 + (h ^ 2 / 72) • ((9 : ℝ) • f + (25 : ℝ) • fc + (2 : ℝ) • f') - (y (i + 1)).1
          = ((x i).1 - (y i).1) + h • ((x i).2 - (y i).2) + (h ^ 2 / 72) • ((9 : ℝ) • (f - g) + (25 : ℝ) • (fc - gc) + (2 : ℝ) • (f' - g'))
            - ((y (i + 1)).1 - ((y i).1 + h • (y i).2 + (h ^ 2 / 72) • ((9 : ℝ) • g + (25 : ℝ) • gc + (2 : ℝ) • g'))) := by module
      rw [e]
      refine (norm_sub_le _ _).trans ((add_le_add ((norm_add_le _ _).trans (add_le_add ((norm_add_le _ _).trans (add_le_add n1 (norm_smul_le hh n2)))
        (norm_smul_le (by positivity) ((norm_add_le _ _).trans (add_le_add ((norm_add_le _ _).trans (add_le_add (norm_smul_le (by norm_num) e0)
        (norm_smul_le (by norm_num) ec'))) (norm_smul_le (by norm_num) e1)))))) lq).trans ?_)
      linarith
    · rw [Prod.snd_sub, hev]
      have e : (x i).2 + (h / 36) • ((3 : ℝ) • f + (25 : ℝ) • fc + (8 : ℝ) • f') - (y (i + 1)).2
          = ((x i).2 - (y i).2) + (h / 36) • ((3 : ℝ) • (f - g) + (25 : ℝ) • (fc - gc) + (8 : ℝ) • (f' - g'))
            - ((y (i + 1)).2 - ((y i).2 + (h / 36) • ((3 : ℝ) • g + (25 : ℝ) • gc + (8 : ℝ) • g'))) := by module
      rw [e]
      refine (norm_sub_le _ _).trans ((add_le_add ((norm_add_le _ _).trans (add_le_add n2 (norm_smul_le (by positivity) ((norm_add_le _ _).trans
        (add_le_add ((norm_add_le _ _).trans (add_le_add (norm_smul_le (by norm_num) e0) (norm_smul_le (by norm_num) ec')))
        (norm_smul_le (by norm_num) e1)))))) lv).trans ?_)
      linarith

end

end Chords.Conv
