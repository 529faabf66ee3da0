/-! # Python string containment -/

namespace Chords.Spec

/-- `"abc" in s`: `needle` is a contiguous block of `s`. -/
def pyInList : List Char → List Char → Bool
  | needle, [] => needle.isEmpty
  | needle, c :: cs => needle.isPrefixOf (c :: cs) || pyInList needle cs

/-- `needle in s` for Python strings. -/
def pyIn (needle s : String) : Bool := pyInList needle.toList s.toList

/-- The specification of containment. -/
theorem pyInList_iff (n s : List Char) : pyInList n s = true ↔ ∃ a b, s = a ++ n ++ b := by
  induction s with
  | nil => 
    simp only [pyInList, List.isEmpty_iff]
    constructor
    · rintro rfl; exact ⟨[], [], rfl⟩
    · rintro ⟨a, b, h⟩; simp at h; exact h.2.1
  | cons c cs ih =>
    simp only [pyInList, Bool.or_eq_true, ih, List.isPrefixOf_iff_prefix]
    constructor
    · rintro (⟨t, h⟩ | ⟨a, b, h⟩)
      · exact ⟨[], t, by simpa using h.symm⟩
      · exact ⟨c :: a, b, by simp [h]⟩
    · rintro ⟨a, b, h⟩
      cases a with
      | nil => left; exact ⟨b, by simpa using h.symm⟩
      | cons x xs => right; simp at h; exact ⟨xs, b, by simpa using h.2⟩

end Chords.Spec
