import Mathlib.Data.List.Basic

/-! Programs with exceptions -/

namespace Chords.Exc

variable {E A B : Type}

theorem bind_ok {x : Except E A} {f : A → Except E B} {b : B} (h : (x >>= f) = .ok b) :
    ∃ a, x = .ok a ∧ f a = .ok b := by
  cases x with
  | error e => cases h
  | ok a => exact ⟨a, rfl, h⟩

theorem mapM_eq {f : A → Except E B} {g : A → B} {l : List A} (h : ∀ a ∈ l, f a = .ok (g a)) :
    l.mapM f = .ok (l.map g) := by
  induction l with
  | nil => rfl
  | cons x l ih =>
    rw [List.mapM_cons, h x (by simp), ih fun a ha => h a (by simp [ha])]
    rfl

theorem mapM_ok {f : A → Except E B} {l : List A} {r : List B} (h : l.mapM f = .ok r) :
    r.length = l.length ∧ ∀ (i : ℕ) a, l[i]? = some a → ∃ b, r[i]? = some b ∧ f a = .ok b := by
  induction l generalizing r with
  | nil =>
    cases h
    simp
  | cons x l ih =>
    rw [List.mapM_cons] at h
    obtain ⟨b, hb, h⟩ := bind_ok h
    obtain ⟨bs, hbs, h⟩ := bind_ok h
    cases h
    obtain ⟨h1, h2⟩ := ih hbs
    refine ⟨by simp [h1], ?_⟩
    intro i a ha
    cases i with
    | zero => simp at ha; subst ha; exact ⟨b, rfl, hb⟩
    | succ i => exact h2 i a (by simpa using ha)

/-- The first failure is the failure of the whole. -/
theorem mapM_error {f : A → Except E B} {e : E} {g : A → B} {l₁ l₂ : List A} {x : A} (h : ∀ a ∈ l₁, f a = .ok (g a))
    (hx : f x = .error e) : (l₁ ++ x :: l₂).mapM f = .error e := by
  induction l₁ with
  | nil => rw [List.nil_append, List.mapM_cons, hx]; rfl
  | cons y l ih =>
    rw [List.cons_append, List.mapM_cons, h y (by simp), ih fun a ha => h a (by simp [ha])]
    rfl

theorem opt_mapM_eq {f : A → Option B} {g : A → B} {l : List A} (h : ∀ a ∈ l, f a = some (g a)) :
    l.mapM f = some (l.map g) := by
  induction l with
  | nil => rfl
  | cons x l ih =>
    rw [List.mapM_cons, h x (by simp), ih fun a ha => h a (by simp [ha])]
    rfl

theorem opt_mapM_none {f : A → Option B} {l : List A} (h : ∃ a ∈ l, f a = none) : l.mapM f = none := by
  induction l with
  | nil => simp at h
  | cons x l ih =>
    rw [List.mapM_cons]
    cases hx : f x with
    | none => rfl
    | some b =>
      obtain ⟨a, ha, hn⟩ := h
      rcases List.mem_cons.1 ha with rfl | ha
      · rw [hn] at hx; cases hx
      · rw [ih ⟨a, ha, hn⟩]; rfl

end Chords.Exc
