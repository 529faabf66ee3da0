import Verif.Model.Interp
import Verif.Spec.Pieces
import Verif.Lemmas.Curves
import Verif.Lemmas.Hsj
import Mathlib.Tactic.Linarith
import Mathlib.Tactic.FieldSimp
import Mathlib.Tactic.IntervalCases

namespace Chords.Interp
open Chords.Spec

theorem pyGet_nat {A : Type} {l : List A} {n : ℕ} {a : A} (h : l[n]? = some a) : pyGet l (n : ℤ) = .ok a := by
  simp [pyGet, h]

theorem pyGet_nat_error {A : Type} {l : List A} {n : ℕ} (h : l.length ≤ n) : pyGet l (n : ℤ) = .error .indexError := by
  simp [pyGet, List.getElem?_eq_none h]

theorem pyGet_ok {A : Type} {l : List A} {n : ℤ} {a : A} (h : pyGet l n = .ok a) : a ∈ l := by
  unfold pyGet at h
  split at h
  · rename_i b hb
    cases h
    split at hb
    · exact List.mem_of_getElem? hb
    · split at hb
      · exact List.mem_of_getElem? hb
      · cases hb
  · cases h

theorem floor_of_mem {h t : ℝ} (hh : 0 < h) {n : ℤ} (h1 : (n : ℝ) * h ≤ t) (h2 : t < (n + 1) * h) : ⌊t / h⌋ = n := by
  rw [Int.floor_eq_iff]
  constructor
  · rwa [le_div_iff₀ hh]
  · rwa [div_lt_iff₀ hh]

theorem at'_eq {d : ℕ} (x : Arr d) (i : ℕ) : at' x i = coord x i := rfl

theorem at'_lt {d : ℕ} (x : Arr d) {i : ℕ} (h : i < d) : at' x i = x ⟨i, h⟩ := by simp [at', h]

section idx
variable {M dim p j : ℕ}

theorem idx_lt (hp : p < M) (hj : j < dim) : dim * p + j < M * dim := by
  calc dim * p + j < dim * p + dim := by omega
    _ = (p + 1) * dim := by ring
    _ ≤ M * dim := Nat.mul_le_mul_right _ hp

theorem idx_div (hj : j < dim) : (dim * p + j) / dim = p := by
  rw [Nat.mul_add_div (by omega), Nat.div_eq_of_lt hj, Nat.add_zero]

theorem idx_mod (hj : j < dim) : (dim * p + j) % dim = j := by
  rw [Nat.mul_add_mod, Nat.mod_eq_of_lt hj]
end idx

theorem tzArr_at {M dim : ℕ} (k : ℕ) (x xd xdn : Arr (M * dim)) (τ h : ℝ) (hM : 0 < M) :
    ∃ y, tzArr false M k x xd xdn τ h = .ok y ∧ ∀ p j, p < M → j < dim →
      coord y (dim * p + j) = tzInterp M k (fun q => coord x (dim * q + j)) (coord xd (dim * (M - 1) + j))
        (coord xdn (dim * (M - 1) + j)) τ h p := by
  refine ⟨_, by simp only [tzArr, hM.ne', if_false, Bool.false_eq_true]; rfl, ?_⟩
  intro p j hp hj
  have hd : M * dim / M = dim := Nat.mul_div_cancel_left _ hM
  rw [coord, dif_pos (idx_lt hp hj)]
  simp only [hd, idx_div hj, idx_mod hj]
  rw [if_pos ⟨by omega, hp⟩]
  rfl

theorem hsArr_at {M dim : ℕ} (k : ℕ) (x xd xdn xdc : Arr (M * dim)) (τ h : ℝ) (hM : 0 < M) :
    ∃ y, hsArr false M k x xd xdn τ h xdc = .ok y ∧ ∀ p j, p < M → j < dim →
      coord y (dim * p + j) = hsInterp M k (fun q => coord x (dim * q + j)) (coord xd (dim * (M - 1) + j))
        (coord xdn (dim * (M - 1) + j)) τ h (coord xdc (dim * (M - 1) + j)) p := by
  refine ⟨_, by simp only [hsArr, hM.ne', if_false, Bool.false_eq_true, false_and]; rfl, ?_⟩
  intro p j hp hj
  have hd : M * dim / M = dim := Nat.mul_div_cancel_left _ hM
  rw [coord, dif_pos (idx_lt hp hj)]
  simp only [hd, idx_div hj, idx_mod hj]
  rw [if_pos ⟨by omega, hp⟩]
  rfl

theorem byPairs_at {dim : ℕ} (f : ℕ → ℝ × ℝ) {p j : ℕ} (hp : p < 2) (hj : j < dim) :
    coord (byPairs (d := 2 * dim) f) (dim * p + j) = if p = 0 then (f j).1 else (f j).2 := by
  have hd : 2 * dim / 2 = dim := Nat.mul_div_cancel_left _ (by omega)
  rw [coord, dif_pos (idx_lt hp hj)]
  simp only [byPairs, hd]
  interval_cases p
  · simp [hj]
  · simp

/-- The part of the order of the derivative that `hsj` supports. -/
def HsjOrder : Option ℕ → Prop := fun o => o = none ∨ o = some 1 ∨ o = some 2

theorem hsjArr_at {dim : ℕ} {k : Option ℕ} (hk : HsjOrder k) (x xn xd xdn xdc : Arr (2 * dim)) (τ h : ℝ) :
    ∃ y, hsjArr false k x xn xd xdn τ h xdc = .ok y ∧ ∀ p j, p < 2 → j < dim →
      coord y (dim * p + j) = hsjCurve (coord x j, coord x (dim + j)) (coord xd (dim + j))
        (coord xdn (dim + j)) (coord xdc (dim + j)) h (p + k.getD 0) τ := by
  have hd : 2 * dim / 2 = dim := Nat.mul_div_cancel_left _ (by omega)
  rcases hk with rfl | rfl | rfl
  · refine ⟨_, by simp only [hsjArr, if_true, if_false, Bool.false_eq_true]; rfl, ?_⟩
    intro p j hp hj
    rw [byPairs_at _ hp hj, hsjInterp_eq]
    simp only [pairAt, hd, at'_eq]
    interval_cases p <;> simp
  · refine ⟨_, by simp only [hsjArr, if_true, if_false, Bool.false_eq_true, reduceCtorEq]; rfl, ?_⟩
    intro p j hp hj
    rw [byPairs_at _ hp hj, hsjDotInterp_eq]
    simp only [pairAt, hd, at'_eq]
    interval_cases p <;> simp
  · refine ⟨_, by simp only [hsjArr, if_true, if_false, Bool.false_eq_true, reduceCtorEq, Option.some.injEq,
        show (2 : ℕ) ≠ 1 by omega]; rfl, ?_⟩
    intro p j hp hj
    rw [byPairs_at _ hp hj, hsjDotDotInterp_eq]
    simp only [pairAt, hd, at'_eq]
    interval_cases p <;> simp

theorem parabolic_congr {M : ℕ} {x x' : ℕ → ℝ} {a ac an m h : ℝ} {c : ℕ → ℝ → ℝ} (e : ∀ p, p < M → x p = x' p)
    (hc : ParabolicMotion M x a ac an m h c) : ParabolicMotion M x' a ac an m h c :=
  ⟨hc.motion, fun p hp => (hc.start p hp).trans (e p hp), hc.top_parabola, hc.top_mid, hc.top_end⟩

theorem tz_is {M : ℕ} {x : ℕ → ℝ} {a ac an h : ℝ} (hh : 0 < h) {c : ℕ → ℝ → ℝ}
    (hc : StepMotion .line M x a ac an h c) (k p : ℕ) (τ : ℝ) : tzInterp M k x a an τ h p = c (p + k) τ := by
  rw [tzInterp_shift]
  exact linearMotion_unique hh.ne' (tzInterp_linearMotion M x a an h hh.ne') hc (p + k) τ

theorem hs_is {M : ℕ} {x : ℕ → ℝ} {a ac an h : ℝ} (hh : 0 < h) {c : ℕ → ℝ → ℝ}
    (hc : StepMotion (.parab (1 / 2)) M x a ac an h c) (k p : ℕ) (τ : ℝ) :
    hsInterp M k x a an τ h ac p = c (p + k) τ := by
  rw [hsInterp_shift]
  have e : (1 / 2 : ℝ) * h = h / 2 := by ring
  have hc' : ParabolicMotion M x a ac an (h / 2) h c := by rw [← e]; exact hc
  exact parabolicMotion_unique (by positivity) hh.ne' (by intro e; linarith)
    (hsInterp_parabolicMotion M x a an ac h hh.ne') hc' (p + k) τ

theorem hsj_is {x : ℕ → ℝ} {a ac an h : ℝ} (hh : 0 < h) {c : ℕ → ℝ → ℝ}
    (hc : StepMotion (.parab (2 / 5)) 2 x a ac an h c) (k : ℕ) (τ : ℝ) :
    hsjCurve (x 0, x 1) a an ac h k τ = c k τ := by
  have e : (2 / 5 : ℝ) * h = 2 * h / 5 := by ring
  have hc' : ParabolicMotion 2 x a ac an (2 * h / 5) h c := by rw [← e]; exact hc
  exact parabolicMotion_unique (by positivity) hh.ne' (by intro e; linarith)
    (parabolic_congr (by intro p hp; interval_cases p <;> rfl) (hsjCurve_parabolic (x 0, x 1) a an ac h hh.ne')) hc' k τ

/-- Motions of every shape exist. -/
theorem stepMotion_exists {order : Option ℕ} {scheme : String} {s : Shape} {M : ℕ} (hs : SchemeIs order scheme s M)
    (x : ℕ → ℝ) (a ac an h : ℝ) (hh : 0 < h) : ∃ c, StepMotion s M x a ac an h c := by
  have l : ∀ M, ∃ c, StepMotion .line M x a ac an h c := fun M => ⟨_, tzInterp_linearMotion M x a an h hh.ne'⟩
  have p : ∀ M, ∃ c, StepMotion (.parab (1 / 2)) M x a ac an h c := fun M => ⟨_, by
    have := hsInterp_parabolicMotion M x a an ac h hh.ne'
    rw [show h / 2 = 1 / 2 * h by ring] at this
    exact this⟩
  have j : ∃ c, StepMotion (.parab (2 / 5)) 2 x a ac an h c := ⟨_, by
    have := hsjCurve_parabolic (x 0, x 1) a an ac h hh.ne'
    rw [show 2 * h / 5 = 2 / 5 * h by ring] at this
    exact parabolic_congr (by intro p hp; interval_cases p <;> rfl) this⟩
  cases hs <;> first | exact l _ | exact p _ | exact j

variable {W : Type}

/-- The derivative at the inner point of step `n` is in the dictionary, or the scheme does not need it. -/
def Middle {d : ℕ} (s : Shape) (sp : Params d W) (n : ℕ) (xdc : Arr d) : Prop :=
  s = .line ∨ ∃ Xc, sp.x_dot_c = some Xc ∧ Xc[n]? = some xdc

theorem piece_at {dim M : ℕ} {sp : Params (M * dim) W} {scheme : String} {s : Shape}
    (hs : SchemeIs sp.order scheme s M) (hM : 0 < M) {k : Option ℕ} (hk : s = .parab (2 / 5) → HsjOrder k)
    {n : ℕ} (x xn xd xdn xdc : Arr (M * dim)) (hm : Middle s sp n xdc) (τ h : ℝ) (hh : 0 < h) :
    ∃ y, piece false scheme k sp n x xn xd xdn τ h = .ok y ∧ ∀ p j, p < M → j < dim → ∀ c,
      StepMotion s M (fun q => coord x (dim * q + j)) (coord xd (dim * (M - 1) + j)) (coord xdc (dim * (M - 1) + j))
        (coord xdn (dim * (M - 1) + j)) h c → coord y (dim * p + j) = c (p + k.getD 0) τ := by
  have line : s = .line → ∃ y, tzArr false M (k.getD 0) x xd xdn τ h = .ok y ∧ ∀ p j, p < M → j < dim → ∀ c,
      StepMotion s M (fun q => coord x (dim * q + j)) (coord xd (dim * (M - 1) + j)) (coord xdc (dim * (M - 1) + j))
        (coord xdn (dim * (M - 1) + j)) h c → coord y (dim * p + j) = c (p + k.getD 0) τ := by
    rintro rfl
    obtain ⟨y, e, hy⟩ := tzArr_at (k.getD 0) x xd xdn τ h hM
    exact ⟨y, e, fun p j hp hj c hc => (hy p j hp hj).trans (tz_is hh hc _ _ _)⟩
  have parab : s = .parab (1 / 2) → ∃ y, hsArr false M (k.getD 0) x xd xdn τ h xdc = .ok y ∧ ∀ p j, p < M → j < dim → ∀ c,
      StepMotion s M (fun q => coord x (dim * q + j)) (coord xd (dim * (M - 1) + j)) (coord xdc (dim * (M - 1) + j))
        (coord xdn (dim * (M - 1) + j)) h c → coord y (dim * p + j) = c (p + k.getD 0) τ := by
    rintro rfl
    obtain ⟨y, e, hy⟩ := hsArr_at (k.getD 0) x xd xdn xdc τ h hM
    exact ⟨y, e, fun p j hp hj c hc => (hy p j hp hj).trans (hs_is hh hc _ _ _)⟩
  cases hs with
  | trapz =>
    obtain ⟨y, e, hy⟩ := line rfl
    exact ⟨y, by simp only [piece, show ("trapz" : String) ≠ "trapz_mod" by decide, if_true, if_false, e], hy⟩
  | trapz_mod =>
    obtain ⟨y, e, hy⟩ := line rfl
    exact ⟨y, by simp only [piece, if_true, e], hy⟩
  | trapz_n M ho =>
    obtain ⟨y, e, hy⟩ := line rfl
    exact ⟨y, by simp only [piece, show ("trapz_n" : String) ≠ "trapz_mod" by decide,
      show ("trapz_n" : String) ≠ "trapz" by decide, if_true, if_false, ho, key, bind, Except.bind, e], hy⟩
  | hs =>
    obtain ⟨y, e, hy⟩ := parab rfl
    obtain h1 | ⟨Xc, h1, h2⟩ := hm
    · cases h1
    exact ⟨y, by simp only [piece, show ("hs" : String) ≠ "trapz_mod" by decide, show ("hs" : String) ≠ "trapz" by decide,
      show ("hs" : String) ≠ "trapz_n" by decide, true_or, if_true, if_false, h1, key, bind, Except.bind, pyGet_nat h2, e],
      hy⟩
  | hs_parab =>
    obtain ⟨y, e, hy⟩ := parab rfl
    obtain h1 | ⟨Xc, h1, h2⟩ := hm
    · cases h1
    exact ⟨y, by simp only [piece, show ("hs_parab" : String) ≠ "trapz_mod" by decide,
      show ("hs_parab" : String) ≠ "trapz" by decide,
      show ("hs_parab" : String) ≠ "trapz_n" by decide, or_true, if_true, if_false, h1, key, bind, Except.bind,
      pyGet_nat h2, e], hy⟩
  | hs_mod =>
    obtain ⟨y, e, hy⟩ := parab rfl
    obtain h1 | ⟨Xc, h1, h2⟩ := hm
    · cases h1
    exact ⟨y, by simp only [piece, show ("hs_mod" : String) ≠ "trapz_mod" by decide,
      show ("hs_mod" : String) ≠ "trapz" by decide, show ("hs_mod" : String) ≠ "trapz_n" by decide,
      show ("hs_mod" : String) ≠ "hs" by decide, show ("hs_mod" : String) ≠ "hs_parab" by decide,
      or_self, true_or, if_true, if_false, h1, key, bind, Except.bind, pyGet_nat h2, e], hy⟩
  | hs_mod_parab =>
    obtain ⟨y, e, hy⟩ := parab rfl
    obtain h1 | ⟨Xc, h1, h2⟩ := hm
    · cases h1
    exact ⟨y, by simp only [piece, show ("hs_mod_parab" : String) ≠ "trapz_mod" by decide,
      show ("hs_mod_parab" : String) ≠ "trapz" by decide, show ("hs_mod_parab" : String) ≠ "trapz_n" by decide,
      show ("hs_mod_parab" : String) ≠ "hs" by decide, show ("hs_mod_parab" : String) ≠ "hs_parab" by decide,
      or_self, or_true, if_true, if_false, h1, key, bind, Except.bind, pyGet_nat h2, e], hy⟩
  | hsn M ho =>
    obtain ⟨y, e, hy⟩ := parab rfl
    obtain h1 | ⟨Xc, h1, h2⟩ := hm
    · cases h1
    exact ⟨y, by simp only [piece, show ("hsn" : String) ≠ "trapz_mod" by decide,
      show ("hsn" : String) ≠ "trapz" by decide, show ("hsn" : String) ≠ "trapz_n" by decide,
      show ("hsn" : String) ≠ "hs" by decide, show ("hsn" : String) ≠ "hs_parab" by decide,
      show ("hsn" : String) ≠ "hs_mod" by decide, show ("hsn" : String) ≠ "hs_mod_parab" by decide,
      or_self, true_or, if_true, if_false, ho, h1, key, bind, Except.bind, pyGet_nat h2, e], hy⟩
  | hsn_parab M ho =>
    obtain ⟨y, e, hy⟩ := parab rfl
    obtain h1 | ⟨Xc, h1, h2⟩ := hm
    · cases h1
    exact ⟨y, by simp only [piece, show ("hsn_parab" : String) ≠ "trapz_mod" by decide,
      show ("hsn_parab" : String) ≠ "trapz" by decide, show ("hsn_parab" : String) ≠ "trapz_n" by decide,
      show ("hsn_parab" : String) ≠ "hs" by decide, show ("hsn_parab" : String) ≠ "hs_parab" by decide,
      show ("hsn_parab" : String) ≠ "hs_mod" by decide, show ("hsn_parab" : String) ≠ "hs_mod_parab" by decide,
      or_self, or_true, if_true, if_false, ho, h1, key, bind, Except.bind, pyGet_nat h2, e], hy⟩
  | hsj =>
    obtain ⟨y, e, hy⟩ := hsjArr_at (hk rfl) x xn xd xdn xdc τ h
    obtain h1 | ⟨Xc, h1, h2⟩ := hm
    · cases h1
    refine ⟨y, by simp only [piece, show ("hsj" : String) ≠ "trapz_mod" by decide,
      show ("hsj" : String) ≠ "trapz" by decide, show ("hsj" : String) ≠ "trapz_n" by decide,
      show ("hsj" : String) ≠ "hs" by decide, show ("hsj" : String) ≠ "hs_parab" by decide,
      show ("hsj" : String) ≠ "hs_mod" by decide, show ("hsj" : String) ≠ "hs_mod_parab" by decide,
      show ("hsj" : String) ≠ "hsn" by decide, show ("hsj" : String) ≠ "hsn_parab" by decide,
      or_self, true_or, if_true, if_false, h1, key, bind, Except.bind, pyGet_nat h2, e], ?_⟩
    intro p j hp hj c hc
    rw [hy p j hp hj]
    have := hsj_is hh hc (p + k.getD 0) τ
    simpa using this
  | hsj_parab =>
    obtain ⟨y, e, hy⟩ := hsjArr_at (hk rfl) x xn xd xdn xdc τ h
    obtain h1 | ⟨Xc, h1, h2⟩ := hm
    · cases h1
    refine ⟨y, by simp only [piece, show ("hsj_parab" : String) ≠ "trapz_mod" by decide,
      show ("hsj_parab" : String) ≠ "trapz" by decide, show ("hsj_parab" : String) ≠ "trapz_n" by decide,
      show ("hsj_parab" : String) ≠ "hs" by decide, show ("hsj_parab" : String) ≠ "hs_parab" by decide,
      show ("hsj_parab" : String) ≠ "hs_mod" by decide, show ("hsj_parab" : String) ≠ "hs_mod_parab" by decide,
      show ("hsj_parab" : String) ≠ "hsn" by decide, show ("hsj_parab" : String) ≠ "hsn_parab" by decide,
      or_self, or_true, if_true, if_false, h1, key, bind, Except.bind, pyGet_nat h2, e], ?_⟩
    intro p j hp hj c hc
    rw [hy p j hp hj]
    have := hsj_is hh hc (p + k.getD 0) τ
    simpa using this

end Chords.Interp
