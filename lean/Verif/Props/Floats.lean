import Verif.Model.Floats
import Mathlib.Tactic.Linarith
import Mathlib.Tactic.FieldSimp
import Mathlib.Tactic.NormNum
import Mathlib.Tactic.Positivity

/-! # C185: rounding the numbers of an expression -/

namespace Chords.Floats

/-- Two expressions that are the same but for their decimal numbers, each of which has become an expression related to it. -/
inductive Changed (R : ℝ → SExpr → Prop) : SExpr → SExpr → Prop
  | float {x e} : R x e → Changed R (.float x) e
  | num (q) : Changed R (.num q) (.num q)
  | sym (n) : Changed R (.sym n) (.sym n)
  | head (n) : Changed R (.head n) (.head n)
  | app {f g a b} : Changed R f g → Changed R a b → Changed R (.app f a) (.app g b)

/-- The value of an expression, given those of its symbols and functions. -/
noncomputable def value (env : String → ℝ) (fn : String → List ℝ → ℝ) : SExpr → List ℝ → ℝ
  | .float x, _ => x
  | .num q, _ => q
  | .sym n, _ => env n
  | .head n, l => fn n l
  | .app f a, l => value env fn f (value env fn a [] :: l)

/-- An expression without decimal numbers. -/
inductive NoFloat : SExpr → Prop
  | num (q) : NoFloat (.num q)
  | sym (n) : NoFloat (.sym n)
  | head (n) : NoFloat (.head n)
  | app {f a} : NoFloat f → NoFloat a → NoFloat (.app f a)

/-! ## Replacing one number after the other -/

/-- The replacement of one entry of the traversal. -/
noncomputable def step (r : ℝ → SExpr) (e : SExpr) : SExpr → SExpr
  | .float x => subs x (r x) e
  | _ => e

theorem step_app (r : ℝ → SExpr) (f a : SExpr) (s : SExpr) : step r (.app f a) s = .app (step r f s) (step r a s) := by
  cases s <;> simp [step, subs]

theorem fold_app (r : ℝ → SExpr) (l : List SExpr) : ∀ f a, l.foldl (step r) (.app f a) = .app (l.foldl (step r) f) (l.foldl (step r) a) := by
  induction l with
  | nil => intro f a; rfl
  | cons s l ih => intro f a; rw [List.foldl_cons, step_app, ih]; rfl

theorem fold_fixed (r : ℝ → SExpr) (e : SExpr) (h : ∀ s, step r e s = e) (l : List SExpr) : l.foldl (step r) e = e := by
  induction l with
  | nil => rfl
  | cons s l ih => rw [List.foldl_cons, h, ih]

/-- What the replacement gives is not changed by further replacements. -/
def Stable (r : ℝ → SExpr) : Prop := ∀ x y, subs y (r y) (r x) = r x

theorem stable_step (r : ℝ → SExpr) (h : Stable r) (x : ℝ) (s : SExpr) : step r (r x) s = r x := by
  cases s <;> simp [step, h x _]

open Classical in
theorem fold_float (r : ℝ → SExpr) (h : Stable r) (x : ℝ) : ∀ l : List SExpr,
    l.foldl (step r) (.float x) = if SExpr.float x ∈ l then r x else .float x := by
  intro l
  induction l with
  | nil => simp
  | cons s l ih =>
    rw [List.foldl_cons]
    by_cases hs : s = .float x
    · subst hs
      rw [show step r (.float x) (.float x) = r x by simp [step, subs], fold_fixed r _ (stable_step r h x)]
      simp
    · have : step r (.float x) s = .float x := by
        cases s with
        | float y =>
          have : x ≠ y := fun h => hs (by rw [h])
          simp [step, subs, this]
        | _ => rfl
      rw [this, ih]
      have : (SExpr.float x ∈ s :: l) ↔ SExpr.float x ∈ l := by
        rw [List.mem_cons]; exact ⟨fun k => k.resolve_left fun k => hs k.symm, Or.inr⟩
      simp only [this]

theorem fold_changed (r : ℝ → SExpr) (h : Stable r) : ∀ (e : SExpr) (l : List SExpr), (∀ s ∈ preorder e, s ∈ l) →
    Changed (fun x e => e = r x) e (l.foldl (step r) e) := by
  classical
  intro e
  induction e with
  | float x =>
    intro l hl
    rw [fold_float r h, if_pos (hl (.float x) (by simp [preorder]))]
    exact .float rfl
  | num q => intro l _; rw [fold_fixed r _ (fun s => by cases s <;> rfl)]; exact .num q
  | sym q => intro l _; rw [fold_fixed r _ (fun s => by cases s <;> rfl)]; exact .sym q
  | head q => intro l _; rw [fold_fixed r _ (fun s => by cases s <;> rfl)]; exact .head q
  | app f a ihf iha =>
    intro l hl
    rw [fold_app]
    exact .app (ihf l fun s hs => hl s (by simp [preorder, hs])) (iha l fun s hs => hl s (by simp [preorder, hs]))

theorem Changed.mono {R S : ℝ → SExpr → Prop} (h : ∀ x e, R x e → S x e) {e e' : SExpr} (k : Changed R e e') : Changed S e e' := by
  induction k with
  | float k => exact .float (h _ _ k)
  | num q => exact .num q
  | sym n => exact .sym n
  | head n => exact .head n
  | app _ _ i j => exact .app i j

theorem Changed.noFloat {R : ℝ → SExpr → Prop} (h : ∀ x e, R x e → NoFloat e) {e e' : SExpr} (k : Changed R e e') : NoFloat e' := by
  induction k with
  | float k => exact h _ _ k
  | num q => exact .num q
  | sym n => exact .sym n
  | head n => exact .head n
  | app _ _ i j => exact .app i j

theorem Changed.unique {r : ℝ → SExpr} {e e₁ e₂ : SExpr} (h : Changed (fun x e => e = r x) e e₁) (k : Changed (fun x e => e = r x) e e₂) :
    e₁ = e₂ := by
  induction h generalizing e₂ with
  | float h => cases k with | float k => rw [h, k]
  | num q => cases k; rfl
  | sym q => cases k; rfl
  | head q => cases k; rfl
  | app _ _ i j => cases k with | app k l => rw [i k, j l]

/-! ## The rounded numbers -/

theorem roundEven_int (k : ℤ) : roundEven k = k := by
  unfold roundEven
  simp

theorem roundEven_close (x : ℝ) : |x - roundEven x| ≤ 1 / 2 := by
  have h1 := Int.floor_le x
  have h2 := Int.lt_floor_add_one x
  unfold roundEven
  split
  · rw [abs_le]; constructor <;> linarith
  · split
    · push_cast; rw [abs_le]; constructor <;> linarith
    · split
      · rw [abs_le]; constructor <;> linarith
      · push_cast; rw [abs_le]; constructor <;> linarith

theorem roundEven_tie (x : ℝ) (h : |x - roundEven x| = 1 / 2) : Even (roundEven x) := by
  have h1 := Int.floor_le x
  have h2 := Int.lt_floor_add_one x
  unfold roundEven at h ⊢
  split at h
  · rename_i hx
    rw [abs_of_nonneg (by linarith)] at h; linarith
  · rename_i hx
    split at h
    · rename_i hy
      push_cast at h
      rw [abs_of_nonpos (by linarith)] at h; linarith
    · rename_i hy
      rw [if_neg hx, if_neg hy]
      by_cases he : Even ⌊x⌋
      · rw [if_pos he]; exact he
      · rw [if_neg he]; exact (Int.not_even_iff_odd.mp he).add_one

theorem roundDigits_idem (n : ℤ) (x : ℝ) : roundDigits n (roundDigits n x) = roundDigits n x := by
  have h : (10 : ℝ) ^ n ≠ 0 := (zpow_pos (by norm_num) n).ne'
  unfold roundDigits
  rw [div_mul_cancel₀ _ h, roundEven_int]

/-! ## The three functions -/

theorem integerize_fold (e : SExpr) : integerize e = (preorder e).foldl (step fun x => .num (roundEven x)) e := by
  unfold integerize
  refine congrArg (fun f => List.foldl f e (preorder e)) ?_
  funext e s
  cases s <;> rfl

theorem roundize_fold (e : SExpr) (n : ℤ) : roundize e n = (preorder e).foldl (step fun x => .float (roundDigits n x)) e := by
  unfold roundize
  refine congrArg (fun f => List.foldl f e (preorder e)) ?_
  funext e s
  cases s <;> rfl

open Classical in
theorem subs_self (x : ℝ) : ∀ e, subs x (.float x) e = e := by
  intro e
  induction e with
  | float y => by_cases h : y = x <;> simp [subs, h]
  | app f a i j => simp [subs, i, j]
  | _ => rfl

open Classical in
theorem deletezeros_fold (e : SExpr) (tol : ℝ) :
    deletezeros e tol = (preorder e).foldl (step fun x => if |x| < tol then .num 0 else .float x) e := by
  unfold deletezeros
  refine congrArg (fun f => List.foldl f e (preorder e)) ?_
  funext e s
  cases s with
  | float x =>
    simp only [step]
    by_cases h : |x| < tol
    · rw [if_pos h, if_pos h]
    · rw [if_neg h, if_neg h, subs_self]
  | _ => rfl

theorem integerize_stable : Stable fun x => .num (roundEven x) := fun _ _ => rfl

theorem roundize_stable (n : ℤ) : Stable fun x => .float (roundDigits n x) := by
  intro x y
  simp only [subs]
  split
  · rename_i h
    rw [← h, roundDigits_idem]
  · rfl

open Classical in
theorem deletezeros_stable (tol : ℝ) : Stable fun x => if |x| < tol then .num 0 else .float x := by
  intro x y
  by_cases h : |x| < tol
  · simp [h, subs]
  · by_cases k : x = y
    · subst k; simp [h, subs]
    · simp [h, subs, k]

/-- C185: `integerize` leaves an expression without decimal numbers, the same but for each of them, which has become the closest integer, and the even one of the two
when it is in the middle. What is missing: expressions that SymPy evaluates to others after a replacement. -/
theorem C185_integerize_partial (e : SExpr) : NoFloat (integerize e) ∧
    Changed (fun x e => ∃ k : ℤ, e = .num k ∧ |x - k| ≤ 1 / 2 ∧ (|x - k| = 1 / 2 → Even k)) e (integerize e) := by
  have h := fold_changed _ integerize_stable e _ (fun _ h => h)
  rw [← integerize_fold] at h
  exact ⟨h.noFloat fun x e h => by rw [h]; exact .num _, h.mono fun x e h => ⟨_, h, roundEven_close x, roundEven_tie x⟩⟩

/-- C185: `roundize` changes each decimal number to a multiple of the last digit, not further than half of it; rounding again changes nothing, though the numbers are
replaced one after the other and what one becomes can be another one. What is missing: as above. -/
theorem C185_roundize_partial (e : SExpr) (n : ℤ) :
    Changed (fun x e => ∃ k : ℤ, e = .float (k / 10 ^ n) ∧ |x - k / 10 ^ n| ≤ 1 / 2 / 10 ^ n ∧
      (|x - k / 10 ^ n| = 1 / 2 / 10 ^ n → Even k)) e (roundize e n) ∧
    roundize (roundize e n) n = roundize e n := by
  have hp : (0 : ℝ) < 10 ^ n := zpow_pos (by norm_num) n
  have key : ∀ x : ℝ, |x - (roundEven (x * 10 ^ n) : ℝ) / 10 ^ n| = |x * 10 ^ n - roundEven (x * 10 ^ n)| / 10 ^ n := by
    intro x
    rw [show x - (roundEven (x * 10 ^ n) : ℝ) / 10 ^ n = (x * 10 ^ n - roundEven (x * 10 ^ n)) / 10 ^ n by field_simp, abs_div, abs_of_pos hp]
  have h := fold_changed _ (roundize_stable n) e _ (fun _ h => h)
  rw [← roundize_fold] at h
  refine ⟨h.mono fun x e h => ⟨roundEven (x * 10 ^ n), h, (key x).le.trans (div_le_div_of_nonneg_right (roundEven_close _) hp.le), fun k =>
    roundEven_tie _ ((div_left_inj' hp.ne').mp ((key x).symm.trans k))⟩, ?_⟩
  · have k := fold_changed _ (roundize_stable n) (roundize e n) _ (fun _ h => h)
    rw [← roundize_fold] at k
    refine k.unique ?_
    clear k
    obtain ⟨e', he'⟩ : ∃ e', e' = roundize e n := ⟨_, rfl⟩
    rw [← he'] at h ⊢
    clear he'
    induction h with
    | float h => rw [h]; exact .float (by rw [roundDigits_idem])
    | num q => exact .num q
    | sym q => exact .sym q
    | head q => exact .head q
    | app _ _ i j => exact .app i j

/-- C185: `deletezeros` changes to zero exactly the decimal numbers that are smaller than the tolerance, and leaves the others. What is missing: as above. -/
theorem C185_deletezeros_partial (e : SExpr) (tol : ℝ) :
    Changed (fun x e => (|x| < tol ∧ e = .num 0) ∨ (tol ≤ |x| ∧ e = .float x)) e (deletezeros e tol) := by
  classical
  have h := fold_changed _ (deletezeros_stable tol) e _ (fun _ h => h)
  rw [← deletezeros_fold] at h
  refine h.mono fun x e h => ?_
  by_cases k : |x| < tol
  · left; exact ⟨k, by rw [h, if_pos k]⟩
  · right; exact ⟨not_lt.mp k, by rw [h, if_neg k]⟩

/-- C185: whole numbers written as decimal numbers can be changed to integers: the value of the expression, for any values of its symbols and functions, is the same. -/
theorem C185_value_partial (e : SExpr) (whole : ∀ x, SExpr.float x ∈ preorder e → ∃ k : ℤ, x = k) (env : String → ℝ) (fn : String → List ℝ → ℝ) (l : List ℝ) :
    value env fn (integerize e) l = value env fn e l := by
  have h := fold_changed _ integerize_stable e _ (fun _ h => h)
  rw [← integerize_fold] at h
  obtain ⟨e', he'⟩ : ∃ e', e' = integerize e := ⟨_, rfl⟩
  rw [← he'] at h ⊢
  clear he'
  induction h generalizing l with
  | @float x _ h =>
    obtain ⟨k, hk⟩ := whole x (by simp [preorder])
    rw [h, hk, roundEven_int]
    simp [value]
  | num q => rfl
  | sym q => rfl
  | head q => rfl
  | app _ _ i j =>
    simp only [value]
    rw [i (fun x hx => whole x (by simp [preorder, hx])), j (fun x hx => whole x (by simp [preorder, hx]))]

/-- `2.0 * x`. -/
example : ∀ x, SExpr.float x ∈ preorder (.app (.app (.head "Mul") (.float 2)) (.sym "x")) → ∃ k : ℤ, x = k := by
  intro x hx
  simp [preorder] at hx
  exact ⟨2, by rw [hx]; norm_num⟩

/-- `2.5 * x` becomes `2 * x`. -/
example : integerize (.app (.app (.head "Mul") (.float 2.5)) (.sym "x")) = .app (.app (.head "Mul") (.num 2)) (.sym "x") := by
  have : roundEven 2.5 = 2 := by
    have : ⌊(2.5 : ℝ)⌋ = 2 := by rw [Int.floor_eq_iff]; norm_num
    unfold roundEven
    rw [this]
    norm_num
  simp [integerize, preorder, subs, this]

/-- Two numbers of which one becomes the other: `0.5 + 0.46 * x` with one digit becomes `0.5 + 0.5 * x`. -/
example : roundize (.app (.app (.head "Add") (.float 0.5)) (.app (.app (.head "Mul") (.float 0.46)) (.sym "x"))) 1 =
    .app (.app (.head "Add") (.float 0.5)) (.app (.app (.head "Mul") (.float 0.5)) (.sym "x")) := by
  have h5 : roundDigits 1 0.5 = 0.5 := by
    unfold roundDigits
    rw [show (0.5 : ℝ) * 10 ^ (1 : ℤ) = ((5 : ℤ) : ℝ) by norm_num, roundEven_int]
    norm_num
  have h46 : roundDigits 1 0.46 = 0.5 := by
    have : ⌊(0.46 : ℝ) * 10 ^ (1 : ℤ)⌋ = 4 := by rw [Int.floor_eq_iff]; norm_num
    unfold roundDigits roundEven
    rw [this]
    norm_num
  simp only [roundize, preorder, List.foldl_cons, List.foldl_nil, List.cons_append, List.nil_append, List.append_nil, h5, h46]
  simp only [subs]
  norm_num [subs]

/-- `1e-20 + x` becomes `0 + x` and `1e-5 + x` remains. -/
example : deletezeros (.app (.app (.head "Add") (.float 1e-20)) (.sym "x")) = .app (.app (.head "Add") (.num 0)) (.sym "x") ∧
    deletezeros (.app (.app (.head "Add") (.float 1e-5)) (.sym "x")) = .app (.app (.head "Add") (.float 1e-5)) (.sym "x") := by
  have h1 : |(1e-20 : ℝ)| < 1e-14 := by rw [abs_of_pos (by norm_num)]; norm_num
  have h2 : ¬|(1e-5 : ℝ)| < 1e-14 := by rw [abs_of_pos (by norm_num)]; norm_num
  constructor
  · simp only [deletezeros, preorder, List.foldl_cons, List.foldl_nil, List.cons_append, List.nil_append, if_pos h1]
    simp [subs]
  · simp only [deletezeros, preorder, List.foldl_cons, List.foldl_nil, List.cons_append, List.nil_append, if_neg h2]

end Chords.Floats
