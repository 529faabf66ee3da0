import Verif.Model.Equi
import Verif.Model.PhScheme
import Verif.Lemmas.Exc
import Mathlib.Tactic.Ring
import Mathlib.Tactic.Linarith
import Mathlib.Tactic.FieldSimp

/-! # Blends of feasible points
The conditions of all problems but the dynamics are affine in the variables. -/

namespace Chords.Blend
open Finset Chords.Points Chords.Bary Chords.BuTd Chords.Equi Chords.PhScheme Chords.Problem

/-- Values that can be blended: `mix s v w` has a part `s` of `v` and a part `1 - s` of `w`. -/
class Mix (V : Type) where
  mix : ℝ → V → V → V

open Mix

noncomputable instance : Mix ℝ := ⟨fun s a b => s * a + (1 - s) * b⟩
instance {ι W : Type} [Mix W] : Mix (ι → W) := ⟨fun s a b i => mix s (a i) (b i)⟩
instance {V W : Type} [Mix V] [Mix W] : Mix (V × W) := ⟨fun s a b => (mix s a.1 b.1, mix s a.2 b.2)⟩
/-- All the variables of a problem are blended. -/
noncomputable instance : Mix Vars := ⟨fun s a b => ⟨mix s a.x b.x, mix s a.xd b.xd, mix s a.u b.u, mix s a.lam b.lam⟩⟩

variable {U V W : Type} [Mix U] [Mix V] [Mix W]

/-- A function that gives the blend of its values. -/
structure Aff (f : V → W) : Prop where
  out : ∀ s v w, f (mix s v w) = mix s (f v) (f w)

/-- A condition that blends meet with what they are made of. -/
structure Keeps (C : V → Prop) : Prop where
  out : ∀ s v w, C v → C w → C (mix s v w)

theorem mix_real (s a b : ℝ) : mix s a b = s * a + (1 - s) * b := rfl

theorem Aff.comp {g : V → W} {f : U → V} (hg : Aff g) (hf : Aff f) : Aff fun v => g (f v) :=
  ⟨fun s v w => (congrArg g (hf.out s v w)).trans (hg.out s _ _)⟩

theorem aff_id : Aff fun v : V => v := ⟨fun _ _ _ => rfl⟩
theorem aff_fst : Aff fun p : V × W => p.1 := ⟨fun _ _ _ => rfl⟩
theorem aff_snd : Aff fun p : V × W => p.2 := ⟨fun _ _ _ => rfl⟩
theorem Aff.pi {ι : Type} {f : V → ι → W} (h : ∀ i, Aff fun v => f v i) : Aff f := ⟨fun s v w => funext fun i => (h i).out s v w⟩
theorem Aff.at {ι : Type} {f : V → ι → W} (h : Aff f) (i : ι) : Aff fun v => f v i := ⟨fun s v w => congrFun (h.out s v w) i⟩
theorem aff_x : Aff fun v : Vars => v.x := ⟨fun _ _ _ => rfl⟩
theorem aff_xd : Aff fun v : Vars => v.xd := ⟨fun _ _ _ => rfl⟩
theorem aff_u : Aff fun v : Vars => v.u := ⟨fun _ _ _ => rfl⟩
theorem aff_lam : Aff fun v : Vars => v.lam := ⟨fun _ _ _ => rfl⟩

theorem aff_lev (order n_q k i j : ℕ) : Aff fun v : Vars => v.lev order n_q k i j := ⟨fun s v w => by
  simp only [Vars.lev]
  split <;> rfl⟩

theorem aff_const (c : ℝ) : Aff fun _ : V => c := ⟨fun s v w => by simp only [mix_real]; ring⟩

theorem Aff.add {f g : V → ℝ} (hf : Aff f) (hg : Aff g) : Aff fun v => f v + g v := ⟨fun s v w => by
  simp only [hf.out, hg.out, mix_real]; ring⟩

theorem Aff.sub {f g : V → ℝ} (hf : Aff f) (hg : Aff g) : Aff fun v => f v - g v := ⟨fun s v w => by
  simp only [hf.out, hg.out, mix_real]; ring⟩

theorem Aff.mul_left {f : V → ℝ} (c : ℝ) (hf : Aff f) : Aff fun v => c * f v := ⟨fun s v w => by
  simp only [hf.out, mix_real]; ring⟩

theorem Aff.mul_right {f : V → ℝ} (hf : Aff f) (c : ℝ) : Aff fun v => f v * c := ⟨fun s v w => by
  simp only [hf.out, mix_real]; ring⟩

theorem Aff.div {f : V → ℝ} (hf : Aff f) (c : ℝ) : Aff fun v => f v / c := ⟨fun s v w => by
  simp only [hf.out, mix_real]; ring⟩

theorem Aff.sum {ι : Type} {f : ι → V → ℝ} (S : Finset ι) (hf : ∀ i ∈ S, Aff (f i)) : Aff fun v => ∑ i ∈ S, f i v := ⟨fun s v w => by
  rw [mix_real, Finset.mul_sum, Finset.mul_sum, ← Finset.sum_add_distrib]
  exact Finset.sum_congr rfl fun i hi => (hf i hi).out s v w⟩

theorem keeps_true : Keeps fun _ : V => True := ⟨fun _ _ _ _ _ => trivial⟩

theorem Keeps.comp {C : W → Prop} {f : V → W} (hC : Keeps C) (hf : Aff f) : Keeps fun v => C (f v) := ⟨fun s v w h k => by
  simp only [hf.out]; exact hC.out s _ _ h k⟩

theorem Keeps.and {C D : V → Prop} (hC : Keeps C) (hD : Keeps D) : Keeps fun v => C v ∧ D v := ⟨fun s v w h k =>
  ⟨hC.out s v w h.1 k.1, hD.out s v w h.2 k.2⟩⟩

theorem Keeps.all {ι : Sort*} {C : ι → V → Prop} (h : ∀ i, Keeps (C i)) : Keeps fun v => ∀ i, C i v := ⟨fun s v w a b i =>
  (h i).out s v w (a i) (b i)⟩

theorem Keeps.eq {f g : V → ℝ} (hf : Aff f) (hg : Aff g) : Keeps fun v => f v = g v := ⟨fun s v w h k => by
  simp only [hf.out, hg.out, h, k]⟩

/-! ## The dynamics -/

/-- The dynamics are linear as far as the conditions go: blends of rows that obey them obey them. -/
def LinearDyn (F : Dyn) : Prop := ∀ (s : ℝ) (x x' xd xd' u u' l l' : ℕ → ℝ), zero (F x xd u l) → zero (F x' xd' u' l') →
  zero (F (fun j => s * x j + (1 - s) * x' j) (fun j => s * xd j + (1 - s) * xd' j) (fun j => s * u j + (1 - s) * u' j)
    fun j => s * l j + (1 - s) * l' j)

/-- So are dynamics with linear residuals: a constant and multiples of the entries of the rows. -/
theorem linearDyn_of_coefficients (n : ℕ) (rows : List ((ℕ → ℝ) × (ℕ → ℝ) × (ℕ → ℝ) × (ℕ → ℝ) × ℝ)) :
    LinearDyn fun x xd u l => rows.map fun r =>
      ∑ j ∈ range n, (r.1 j * x j + r.2.1 j * xd j + r.2.2.1 j * u j + r.2.2.2.1 j * l j) + r.2.2.2.2 := by
  intro s x x' xd xd' u u' l l' h k r hr
  obtain ⟨c, hc, rfl⟩ := List.mem_map.1 hr
  have h1 := h _ (List.mem_map.2 ⟨c, hc, rfl⟩)
  have h2 := k _ (List.mem_map.2 ⟨c, hc, rfl⟩)
  have e : ∑ j ∈ range n, (c.1 j * (s * x j + (1 - s) * x' j) + c.2.1 j * (s * xd j + (1 - s) * xd' j)
      + c.2.2.1 j * (s * u j + (1 - s) * u' j) + c.2.2.2.1 j * (s * l j + (1 - s) * l' j)) =
      s * (∑ j ∈ range n, (c.1 j * x j + c.2.1 j * xd j + c.2.2.1 j * u j + c.2.2.2.1 j * l j))
      + (1 - s) * ∑ j ∈ range n, (c.1 j * x' j + c.2.1 j * xd' j + c.2.2.1 j * u' j + c.2.2.2.1 j * l' j) := by
    rw [Finset.mul_sum, Finset.mul_sum, ← Finset.sum_add_distrib]
    exact Finset.sum_congr rfl fun j _ => by ring
  rw [e]
  linear_combination s * h1 + (1 - s) * h2

theorem keeps_dyn {F : Dyn} (hF : LinearDyn F) {x xd u l : V → ℕ → ℝ} (hx : Aff x) (hxd : Aff xd) (hu : Aff u) (hl : Aff l) :
    Keeps fun v => zero (F (x v) (xd v) (u v) (l v)) := ⟨fun s v w h k => by
  simp only [hx.out, hxd.out, hu.out, hl.out]
  exact hF s _ _ _ _ _ _ _ _ h k⟩

theorem keeps_row {F : Dyn} (hF : LinearDyn F) (i m k : ℕ) : Keeps fun v : Vars => zero (F (v.x i) (v.xd i) (v.u m) (v.lam k)) :=
  keeps_dyn hF (aff_x.at i) (aff_xd.at i) (aff_u.at m) (aff_lam.at k)

/-! ## Problems of one interval -/

theorem keeps_dynConstraints {F : Dyn} (hF : LinearDyn F) (rows : List ℕ) : Keeps (dynConstraints F rows) :=
  .all fun ii => .all fun _ => keeps_row hF _ _ _

theorem aff_data (order n_q : ℕ) (rows : List ℕ) (j c : ℕ) : Aff fun v => polynomialData order n_q rows v j c := by
  unfold polynomialData
  split
  · exact aff_lev ..
  · exact aff_lev ..

theorem keeps_bu {F : Dyn} (hF : LinearDyn F) {scheme : String} {N order n_q : ℕ} {t0 t1 : ℝ} {C : Vars → Prop}
    (h : buConstraints F scheme N order n_q t0 t1 = .ok C) : Keeps C := by
  have end_ : ∀ (mat : ℕ → ℝ) (rows : List ℕ) (r : ℕ), Keeps fun v : Vars => ∀ j < n_q,
      v.lev order n_q order r j = ∑ c ∈ range N, mat c * v.lev order n_q order (rows.getD c 0) j := fun mat rows r =>
    .all fun j => .all fun _ => .eq (aff_lev ..) (.sum _ fun c _ => .mul_left _ (aff_lev ..))
  have main : ∀ (mats : List (ℕ → ℕ → ℝ)) (rows : List ℕ) (n : ℕ), Keeps fun v : Vars => (∀ ii < order, ∀ i < n - 1, ∀ j < n_q,
      v.lev order n_q ii (i + 1) j
        = ∑ c ∈ range (order + N), mats.getD ii (fun _ _ => 0) i c * polynomialData order n_q rows v j c) ∧
      dynConstraints F rows v := fun mats rows n =>
    .and (.all fun ii => .all fun _ => .all fun i => .all fun _ => .all fun j => .all fun _ =>
      .eq (aff_lev ..) (.sum _ fun c _ => .mul_left _ (aff_data ..))) (keeps_dynConstraints hF _)
  unfold buConstraints at h
  obtain ⟨full, -, h⟩ := Exc.bind_ok h
  obtain ⟨ci, -, h⟩ := Exc.bind_ok h
  dsimp only at h
  have finish : ∀ (start fin : Vars → Prop), Keeps start → Keeps fin → (do
      let mats ← (List.range order).mapM fun ii => integrationMatrix N scheme ii (t1 - t0) order
      .ok fun v : Vars => start v ∧ fin v ∧
        (∀ ii < order, ∀ i < full.length - 1, ∀ j < n_q, v.lev order n_q ii (i + 1) j
          = ∑ c ∈ range (order + N), mats.getD ii (fun _ _ => 0) i c *
            polynomialData order n_q (dynRows full.length ci) v j c) ∧
        dynConstraints F (dynRows full.length ci) v : Except BErr (Vars → Prop)) = .ok C → Keeps C := by
    intro start fin hs hf h
    obtain ⟨mats, -, h⟩ := Exc.bind_ok h
    obtain rfl := Except.ok.inj h
    exact .and hs (.and hf (main ..))
  split at h
  · obtain ⟨ms, -, h⟩ := Exc.bind_ok h
    obtain ⟨start, hs, h⟩ := Exc.bind_ok h
    obtain rfl := Except.ok.inj hs
    split at h
    · obtain ⟨me, -, h⟩ := Exc.bind_ok h
      obtain ⟨fin, hf, h⟩ := Exc.bind_ok h
      obtain rfl := Except.ok.inj hf
      exact finish _ _ (end_ ..) (end_ ..) h
    · obtain ⟨fin, hf, h⟩ := Exc.bind_ok h
      obtain rfl := Except.ok.inj hf
      exact finish _ _ (end_ ..) keeps_true h
  · obtain ⟨start, hs, h⟩ := Exc.bind_ok h
    obtain rfl := Except.ok.inj hs
    split at h
    · obtain ⟨me, -, h⟩ := Exc.bind_ok h
      obtain ⟨fin, hf, h⟩ := Exc.bind_ok h
      obtain rfl := Except.ok.inj hf
      exact finish _ _ keeps_true (end_ ..) h
    · obtain ⟨fin, hf, h⟩ := Exc.bind_ok h
      obtain rfl := Except.ok.inj hf
      exact finish _ _ keeps_true keeps_true h

theorem keeps_td {F : Dyn} (hF : LinearDyn F) {scheme : String} {N order n_q : ℕ} {t0 t1 : ℝ} {C : Vars → (ℕ → ℕ → ℝ) → Prop}
    (h : tdConstraints F scheme N order n_q t0 t1 = .ok C) : Keeps fun p : Vars × (ℕ → ℕ → ℝ) => C p.1 p.2 := by
  unfold tdConstraints at h
  obtain ⟨full, -, h⟩ := Exc.bind_ok h
  obtain ⟨ci, -, h⟩ := Exc.bind_ok h
  obtain ⟨D, -, h⟩ := Exc.bind_ok h
  obtain ⟨L, -, h⟩ := Exc.bind_ok h
  obtain rfl := Except.ok.inj h
  exact .and (.all fun ii => .all fun _ => .all fun i => .all fun _ => .all fun j => .all fun _ =>
      .eq ((aff_lev ..).comp aff_fst) (.sum _ fun c _ => .mul_left _ ((aff_snd.at c).at j)))
    ((keeps_dynConstraints hF _).comp aff_fst)

theorem lift_ok {A : Type} {x : Except Err A} {a : A} (h : BuTd.lift x = .ok a) : x = .ok a := by
  cases x with
  | error e => cases h
  | ok b =>
    obtain rfl := Except.ok.inj h
    rfl

theorem aff_extreme {scheme : String} {N : ℕ} {mode point : String} {order : ℕ} {f : (ℕ → ℝ) → ℝ}
    (h : baryExtreme scheme N mode point order = .ok f) : Aff f := by
  have coef : ∀ i : ℕ, Aff fun a : ℕ → ℝ => a i := fun i => aff_id.at i
  have h0 : ∀ i, (Except.ok fun a : ℕ → ℝ => a i : Except Err ((ℕ → ℝ) → ℝ)) = .ok f → Aff f := fun i h => by
    obtain rfl := Except.ok.inj h
    exact coef i
  obtain ⟨g, hg, h⟩ : ∃ g : Except Err ((ℕ → ℝ) → ℝ), (∀ f, g = .ok f → Aff f) ∧
      (if point = "start" then
        if mode = "u" then if scheme ∈ lobatoLike ++ radauLike ++ ["D2"] then .ok fun coefs => coefs 0 else g
        else if mode = "x" then if scheme ∈ gaussInv then g else .ok fun coefs => coefs 0 else .error .valueError
      else if point = "end" then
        if mode = "u" then if scheme ∈ lobatoLike ++ radauInv ++ ["D2"] then .ok fun coefs => coefs (N - 1) else g
        else if mode = "x" then if scheme ∈ gaussLike then g else .ok fun coefs => coefs (N - 1) else .error .valueError
      else .error .valueError) = Except.ok f := by
    refine ⟨_, fun f h => ?_, h⟩
    dsimp only at h
    split at h
    all_goals
      obtain ⟨v, -, h⟩ := Exc.bind_ok h
      split at h
      all_goals
        obtain ⟨t, -, h⟩ := Exc.bind_ok h
        obtain rfl := Except.ok.inj h
        exact .div (.sum _ fun i _ => .mul_right (coef i) _) _
  split at h
  · split at h
    · split at h
      · exact h0 _ h
      · exact hg _ h
    · split at h
      · split at h
        · exact hg _ h
        · exact h0 _ h
      · cases h
  · split at h
    · split at h
      · split at h
        · exact h0 _ h
        · exact hg _ h
      · split at h
        · split at h
          · exact hg _ h
          · exact h0 _ h
        · cases h
    · cases h

/-- Node based problems: blends of feasible points are feasible. -/
theorem keeps_node {F : Dyn} (hF : LinearDyn F) {scheme : String} {N order n_q : ℕ} {t0 t1 : ℝ} {C : Vars → Prop}
    (h : nodeConstraints F scheme N order n_q t0 t1 = .ok C) : Keeps C := by
  have ext : ∀ {point : String} {n : ℕ} {f : (ℕ → ℝ) → ℝ}, BuTd.lift (baryExtreme scheme n "x" point order) = .ok f → ∀ r off : ℕ,
      Keeps fun v : Vars => (∀ col < order * n_q, v.x r col = f (fun c => v.x (off + c) col)) ∧
        ∀ j < n_q, v.lev order n_q order r j = f (fun c => v.lev order n_q order (off + c) j) := fun hf r off =>
    have hf := aff_extreme (lift_ok hf)
    .and (.all fun col => .all fun _ => .eq ((aff_x.at _).at _) (hf.comp (.pi fun c => (aff_x.at _).at _)))
      (.all fun j => .all fun _ => .eq (aff_lev ..) (hf.comp (.pi fun c => aff_lev ..)))
  have schemeC : ∀ (D : ℕ → ℕ → ℝ) (n off : ℕ) (scale : ℝ), Keeps (if scheme ∈ gauss2 ++ ["D2"] then
        fun v : Vars => (∀ i < n, ∀ j < n_q, v.lev order n_q 1 (off + i) j
            = scale * ∑ c ∈ range n, D i c * v.lev order n_q 0 (off + c) j) ∧
          (∀ i < n, ∀ j < n_q, v.lev order n_q 2 (off + i) j
            = scale * ∑ c ∈ range n, D i c * v.lev order n_q 1 (off + c) j)
      else fun v => ∀ i < n, ∀ col < order * n_q, v.xd (off + i) col
            = scale * ∑ c ∈ range n, D i c * v.x (off + c) col) := by
    intro D n off scale
    split
    · exact .and (.all fun i => .all fun _ => .all fun j => .all fun _ => .eq (aff_lev ..)
        (.mul_left _ (.sum _ fun c _ => .mul_left _ (aff_lev ..))))
        (.all fun i => .all fun _ => .all fun j => .all fun _ => .eq (aff_lev ..)
        (.mul_left _ (.sum _ fun c _ => .mul_left _ (aff_lev ..))))
    · exact .all fun i => .all fun _ => .all fun j => .all fun _ => .eq ((aff_xd.at _).at _)
        (.mul_left _ (.sum _ fun c _ => .mul_left _ ((aff_x.at _).at _)))
  unfold nodeConstraints at h
  split at h
  · cases h
  obtain ⟨n, -, h⟩ := Exc.bind_ok h
  obtain ⟨full, -, h⟩ := Exc.bind_ok h
  obtain ⟨D, -, h⟩ := Exc.bind_ok h
  dsimp only at h
  have dyn : Keeps fun v : Vars => ∀ ii < N, zero (F (v.x (i0 scheme + ii)) (v.xd (i0 scheme + ii)) (v.u ii) (v.lam ii)) :=
    .all fun ii => .all fun _ => keeps_row hF _ _ _
  split at h
  · obtain ⟨f, hf, h⟩ := Exc.bind_ok h
    obtain ⟨start, hs, h⟩ := Exc.bind_ok h
    obtain rfl := Except.ok.inj hs
    split at h
    · obtain ⟨g, hg, h⟩ := Exc.bind_ok h
      obtain ⟨fin, hf', h⟩ := Exc.bind_ok h
      obtain rfl := Except.ok.inj hf'
      obtain rfl := Except.ok.inj h
      exact .and (schemeC ..) (.and (ext hf ..) (.and (ext hg ..) dyn))
    · obtain ⟨fin, hf', h⟩ := Exc.bind_ok h
      obtain rfl := Except.ok.inj hf'
      obtain rfl := Except.ok.inj h
      exact .and (schemeC ..) (.and (ext hf ..) (.and keeps_true dyn))
  · obtain ⟨start, hs, h⟩ := Exc.bind_ok h
    obtain rfl := Except.ok.inj hs
    split at h
    · obtain ⟨g, hg, h⟩ := Exc.bind_ok h
      obtain ⟨fin, hf', h⟩ := Exc.bind_ok h
      obtain rfl := Except.ok.inj hf'
      obtain rfl := Except.ok.inj h
      exact .and (schemeC ..) (.and keeps_true (.and (ext hg ..) dyn))
    · obtain ⟨fin, hf', h⟩ := Exc.bind_ok h
      obtain rfl := Except.ok.inj hf'
      obtain rfl := Except.ok.inj h
      exact .and (schemeC ..) (.and keeps_true (.and keeps_true dyn))

/-! ## Equispaced problems -/

theorem Aff.smul {f : V → ℝ} (c : ℝ) (hf : Aff f) : Aff fun v => c • f v := hf.mul_left c

theorem aff_shiftIn {x : V → ℕ → ℝ} {a : V → ℝ} (hx : Aff x) (ha : Aff a) (M p : ℕ) : Aff fun v => shiftIn M (x v) (a v) p := by
  simp only [shiftIn]
  split
  · exact hx.at _
  · exact ha

/-- Splits a sum of multiples. -/
macro "affine" : tactic => `(tactic| repeat' first
  | assumption
  | refine Aff.sub ?_ ?_
  | refine Aff.add ?_ ?_
  | refine Aff.smul _ ?_
  | refine Aff.mul_left _ ?_
  | refine Aff.div ?_ _
  | refine Aff.sum _ fun _ _ => ?_
  | refine aff_shiftIn ?_ ?_ _ _
  | refine Aff.at ?_ _)

section
variable {x xn : V → ℕ → ℝ} {a an ac : V → ℝ} (hx : Aff x) (hxn : Aff xn) (ha : Aff a) (han : Aff an) (hac : Aff ac)
include hx hxn ha han

theorem aff_hsHalfX (M : ℕ) (dt : ℝ) (p : ℕ) : Aff fun v => hsHalfX M (x v) (xn v) (a v) (an v) dt p := by
  simp only [hsHalfX]
  affine

theorem aff_halfX (scheme : String) (M : ℕ) (dt : ℝ) (p : ℕ) : Aff fun v => halfX scheme M (x v) (xn v) (a v) (an v) dt p := by
  unfold halfX
  split
  · simp only [seq2, hsjHalfX]
    split <;> affine
  split
  · simp only [hsMHalfX]
    affine
  split
  · simp only [seq2, hsModHalfX]
    split <;> affine
  · exact aff_hsHalfX hx hxn ha han M dt p

include hac

theorem aff_restr {scheme : String} {M : ℕ} {f : Restr} (h : restrTable scheme M = .ok f) (dt : ℝ) (p : ℕ) :
    Aff fun v => f (x v) (xn v) (a v) (an v) dt (ac v) p := by
  unfold restrTable at h
  split at h
  · obtain rfl := Except.ok.inj h
    simp only [trapzAccelRestr]
    affine
  split at h
  · obtain rfl := Except.ok.inj h
    simp only [seq2, trapzModAccelRestr, Prod.fst_sub, Prod.snd_sub]
    split <;> affine
  split at h
  · obtain rfl := Except.ok.inj h
    simp only [trapzMRestr]
    affine
  split at h
  · obtain rfl := Except.ok.inj h
    have hh : Aff fun v => hsHalfX M (x v) (xn v) (a v) (an v) dt := .pi fun p => aff_hsHalfX hx hxn ha han M dt p
    simp only [hsAccelRestr]
    affine
  split at h
  · obtain rfl := Except.ok.inj h
    simp only [seq2, hsModAccelRestr, Prod.fst_sub, Prod.snd_sub]
    split <;> affine
  split at h
  · obtain rfl := Except.ok.inj h
    simp only [seq2, hsjAccelRestr, Prod.fst_sub, Prod.snd_sub]
    split <;> affine
  split at h
  · obtain rfl := Except.ok.inj h
    simp only [hsMRestr]
    affine
  · cases h

end

/-- Equispaced problems: blends of feasible points are feasible. -/
theorem keeps_equi {F : Dyn} (hF : LinearDyn F) {scheme : String} {N order n_q n_u : ℕ} {t0 t1 : ℝ} {C : Vars → Vars → Prop}
    (h : equiConstraints F scheme N order n_q n_u t0 t1 = .ok C) : Keeps fun p : Vars × Vars => C p.1 p.2 := by
  obtain ⟨f, hf, h⟩ := Exc.bind_ok h
  obtain rfl := Except.ok.inj h
  have lev : ∀ k i j, Aff fun p : Vars × Vars => p.1.lev order n_q k i j := fun k i j => (aff_lev order n_q k i j).comp aff_fst
  have clev : ∀ k i j, Aff fun p : Vars × Vars => p.2.lev order n_q k i j := fun k i j => (aff_lev order n_q k i j).comp aff_snd
  have levs : ∀ i j, Aff fun (p : Vars × Vars) k => p.1.lev order n_q k i j := fun i j => .pi fun k => lev k i j
  refine .and (.all fun ii => .all fun _ => .all fun j => .all fun _ => .all fun p => .all fun _ => .eq ?_ (aff_const 0))
    (.and (.all fun ii => .all fun _ => (keeps_row hF ii ii ii).comp aff_fst) (.all fun _ => .and
      (.all fun ii => .all fun _ => .and (.all fun j => .all fun _ => .all fun p => .all fun _ => .eq (clev ..) ?_)
        ((keeps_row hF ii ii ii).comp aff_snd))
      (.all fun _ => .all fun ii => .all fun _ => .all fun m => .all fun _ =>
        .eq (((aff_u.comp aff_snd).at _).at _) ?_)))
  · exact aff_restr (levs ..) (levs ..) (lev ..) (lev ..) (clev ..) hf _ _
  · exact aff_halfX (levs ..) (levs ..) (lev ..) (lev ..) _ _ _ _
  · have e : ∀ i m, Aff fun p : Vars × Vars => p.1.u i m := fun i m => ((aff_u.comp aff_fst).at i).at m
    unfold centreU
    split
    · exact .add (.mul_left _ (e ..)) (.mul_left _ (e ..))
    · exact .div (.add (e ..) (e ..)) _

/-! ## Segmented problems -/

theorem keeps_shift (order n_q r : ℕ) : Keeps (shift order n_q r) :=
  .all fun _ => .all fun _ => .eq ((aff_x.at _).at _) ((aff_xd.at _).at _)

theorem keeps_seg {mode : Mode} {scheme : String} {s : Slice} {order n_q : ℕ} {g : Seg} {C : Vars → (ℕ → ℕ → ℝ) → Prop}
    (h : phSeg mode scheme s order n_q g = .ok C) : Keeps fun p : Vars × (ℕ → ℕ → ℝ) => C p.1 p.2 := by
  have shf : ∀ r, Keeps fun p : Vars × (ℕ → ℕ → ℝ) => shift order n_q r p.1 := fun r => (keeps_shift order n_q r).comp aff_fst
  cases mode with
  | td =>
    change phTd scheme s order n_q g = .ok C at h
    obtain ⟨D, -, h⟩ := Exc.bind_ok h
    obtain ⟨L, -, h⟩ := Exc.bind_ok h
    obtain ⟨full, -, h⟩ := Exc.bind_ok h
    obtain rfl := Except.ok.inj h
    have lev : ∀ k i j, Aff fun p : Vars × (ℕ → ℕ → ℝ) => p.1.lev order n_q k i j := fun k i j => (aff_lev order n_q k i j).comp aff_fst
    have res : ∀ ii i j, Aff fun p : Vars × (ℕ → ℕ → ℝ) => tdRes D L (order + g.n) g.h p.2 ii i j := fun ii i j =>
      .sum _ fun c _ => .mul_left _ ((aff_snd.at _).at _)
    exact .and (.all fun ii => .all fun _ => .all fun j => .all fun _ => .and (.all fun m => .all fun _ => .eq (lev ..) (res ..))
      (.and (.eq (lev ..) (res ..)) (.all fun _ => .eq (lev ..) (res ..)))) (.and (shf _) (.all fun _ => shf _))
  | bu =>
    change (phBu scheme s order n_q g).map (fun C v _ => C v) = .ok C at h
    cases hp : phBu scheme s order n_q g with
    | error e => rw [hp] at h; cases h
    | ok B =>
      rw [hp] at h
      obtain rfl := Except.ok.inj h
      refine Keeps.comp (C := B) ?_ aff_fst
      obtain ⟨sv, hsv, hp⟩ := Exc.bind_ok hp
      obtain ⟨ev, hev, hp⟩ := Exc.bind_ok hp
      obtain ⟨mats, -, hp⟩ := Exc.bind_ok hp
      obtain ⟨constr, -, hp⟩ := Exc.bind_ok hp
      obtain rfl := Except.ok.inj hp
      have asv : ∀ j, Aff fun v => sv v j := by
        intro j
        unfold hqdStart at hsv
        split at hsv
        · obtain ⟨m, -, hsv⟩ := Exc.bind_ok hsv
          obtain rfl := Except.ok.inj hsv
          exact .sum _ fun c _ => .mul_left _ (aff_lev ..)
        split at hsv
        · obtain rfl := Except.ok.inj hsv
          exact aff_lev ..
        · cases hsv
      have aev : ∀ j, Aff fun v => ev v j := by
        intro j
        unfold hqdLast at hev
        split at hev
        · unfold hqdEnd at hev
          split at hev
          · obtain ⟨m, -, hev⟩ := Exc.bind_ok hev
            obtain rfl := Except.ok.inj hev
            exact .sum _ fun c _ => .mul_left _ (aff_lev ..)
          split at hev
          · obtain rfl := Except.ok.inj hev
            exact aff_lev ..
          · cases hev
        · obtain rfl := Except.ok.inj hev
          exact aff_const 0
      have adata : ∀ j c, Aff fun v => buData order n_q g v j c := by
        intro j c
        unfold buData
        split <;> exact aff_lev ..
      have ares : ∀ (mat : ℕ → ℕ → ℝ) ii i j, Aff fun v => buRes mat order n_q g v ii i j := by
        intro mat ii i j
        cases i with
        | zero => exact aff_lev ..
        | succ i => exact .sum _ fun c _ => .mul_left _ (adata ..)
      exact .and (.all fun j => .all fun _ => .eq (aff_lev ..) (asv _)) (.and (.all fun _ => .all fun j => .all fun _ =>
        .eq (aff_lev ..) (aev _)) (.and (keeps_shift ..) (.and (.all fun _ => keeps_shift ..) (.all fun ii => .all fun _ => .all fun j =>
        .all fun _ => .and (.all fun m => .all fun _ => .eq (aff_lev ..) (ares ..)) (.eq (aff_lev ..) (ares ..))))))
  | node =>
    change (phNode scheme order n_q g).map (fun C v _ => C v) = .ok C at h
    cases hp : phNode scheme order n_q g with
    | error e => rw [hp] at h; cases h
    | ok B =>
      rw [hp] at h
      obtain rfl := Except.ok.inj h
      refine Keeps.comp (C := B) ?_ aff_fst
      obtain ⟨n, -, hp⟩ := Exc.bind_ok hp
      obtain ⟨D, -, hp⟩ := Exc.bind_ok hp
      obtain ⟨fs, hfs, hp⟩ := Exc.bind_ok hp
      obtain ⟨fe, hfe, hp⟩ := Exc.bind_ok hp
      obtain rfl := Except.ok.inj hp
      have afs : Aff fs := by
        unfold fStart at hfs
        split at hfs
        · exact aff_extreme (lift_ok hfs)
        · obtain rfl := Except.ok.inj hfs
          exact aff_const 0
      have afe : Aff fe := by
        unfold fEnd at hfe
        split at hfe
        · exact aff_extreme (lift_ok hfe)
        · obtain rfl := Except.ok.inj hfe
          exact aff_const 0
      have same : ∀ r r', Keeps fun v : Vars => sameRow order n_q v.x r r' := fun r r' =>
        .all fun _ => .all fun _ => .eq ((aff_x.at _).at _) ((aff_x.at _).at _)
      have samed : ∀ r r', Keeps fun v : Vars => sameRow order n_q v.xd r r' := fun r r' =>
        .all fun _ => .all fun _ => .eq ((aff_xd.at _).at _) ((aff_xd.at _).at _)
      have ext : ∀ {f : (ℕ → ℝ) → ℝ}, Aff f → ∀ nodes r, Keeps fun v => extreme order n_q nodes f r v := fun hf nodes r =>
        .and (.all fun c => .all fun _ => .eq ((aff_x.at _).at _) (hf.comp (.pi fun i => (aff_x.at _).at _)))
          (.all fun j => .all fun _ => .eq (aff_lev ..) (hf.comp (.pi fun i => aff_lev ..)))
      exact .and (.all fun i => .all fun _ => .all fun c => .all fun _ => .eq ((aff_xd.at _).at _)
          (.mul_left _ (.sum _ fun k _ => .mul_left _ ((aff_x.at _).at _))))
        (.and (.all fun _ => .and (keeps_shift ..) (.all fun _ => keeps_shift ..))
        (.and (.all fun _ => .and (same ..) (.all fun _ => samed ..)) (.and (.all fun _ => same ..) (.and (.all fun _ => samed ..)
        (.and (.all fun _ => samed ..) (.and (.all fun _ => .and (ext afs ..) (.all fun _ => keeps_shift ..))
        (.all fun _ => .and (ext afe ..) (.all fun _ => keeps_shift ..))))))))

/-- Segmented problems: blends of feasible points are feasible. -/
theorem keeps_ph {F : Dyn} (hF : LinearDyn F) {mode : Mode} {scheme : String} {order n_q n_u : ℕ} {points : List ℕ} {ext : List ℝ}
    {C : Vars → (ℕ → ℕ → ℕ → ℝ) → Prop} (h : phConstraints F mode scheme order n_q n_u points ext = .ok C) :
    Keeps fun p : Vars × (ℕ → ℕ → ℕ → ℝ) => C p.1 p.2 := by
  obtain ⟨s, -, h⟩ := Exc.bind_ok h
  obtain ⟨Cs, hCs, h⟩ := Exc.bind_ok h
  obtain ⟨us, hus, h⟩ := Exc.bind_ok h
  obtain ⟨ue, hue, h⟩ := Exc.bind_ok h
  obtain rfl := Except.ok.inj h
  obtain ⟨lC, hC⟩ := Exc.mapM_ok hCs
  obtain ⟨lu, hu⟩ := Exc.mapM_ok hus
  have au : ∀ r c, Aff fun p : Vars × (ℕ → ℕ → ℕ → ℝ) => p.1.u r c := fun r c => ((aff_u.comp aff_fst).at r).at c
  have aue : Aff ue := by
    unfold uEnd at hue
    split at hue
    · obtain rfl := Except.ok.inj hue
      exact aff_id.at _
    · exact aff_extreme (lift_ok hue)
  refine .and (.all fun k => .all fun hk => ?_) (.and (.all fun ii => .all fun _ => (keeps_row hF _ _ _).comp aff_fst)
    (.and (.all fun k => .all fun hk => .all fun c => .all fun _ => .eq (au ..) (Aff.comp ?_ (.pi fun m => au ..)))
      (.all fun c => .all fun _ => .eq (au ..) (aue.comp (.pi fun m => au ..)))))
  · obtain ⟨B, hB, hg⟩ := hC k _ (List.getElem?_eq_getElem hk)
    rw [List.getD_eq_getElem?_getD, hB]
    exact (keeps_seg hg).comp (f := fun p : Vars × (ℕ → ℕ → ℕ → ℝ) => (p.1, p.2 k)) ⟨fun _ _ _ => rfl⟩
  · obtain ⟨f, hf, hg⟩ := hu k _ (List.getElem?_eq_getElem hk)
    rw [List.getD_eq_getElem?_getD, hf]
    unfold uStart at hg
    split at hg
    · obtain rfl := Except.ok.inj hg
      exact aff_id.at 0
    · exact aff_extreme (lift_ok hg)

end Chords.Blend
