import Mathlib.Data.List.Basic
import Mathlib.Data.Int.Basic

/-! # Python list slicing -/

namespace Chords.Spec

/-- How Python turns a slice bound into a position: negative bounds count from the end, and bounds are clipped. -/
def pyBound (len : ℕ) (i : ℤ) : ℕ := if i < 0 then (i + len).toNat else min i.toNat len

/-- `l[start:stop]`. -/
def pySlice {α : Type*} (start stop : Option ℤ) (l : List α) : List α :=
  let a := (start.map (pyBound l.length)).getD 0
  let b := (stop.map (pyBound l.length)).getD l.length
  (l.take b).drop a

@[simp] theorem pySlice_all {α : Type*} (l : List α) : pySlice none none l = l := by simp [pySlice]

@[simp] theorem pySlice_one {α : Type*} (l : List α) : pySlice (some 1) none l = l.tail := by
  cases l <;> simp [pySlice, pyBound]

@[simp] theorem pySlice_neg {α : Type*} (l : List α) : pySlice none (some (-1)) l = l.dropLast := by
  simp only [pySlice, Option.map_none, Option.getD_none, Option.map_some, Option.getD_some, List.drop_zero,
    List.dropLast_eq_take]
  congr 1
  simp [pyBound]; omega

@[simp] theorem pySlice_inner {α : Type*} (l : List α) : pySlice (some 1) (some (-1)) l = l.tail.dropLast := by
  cases l with
  | nil => simp [pySlice, pyBound]
  | cons x l =>
    simp only [pySlice, Option.map_some, Option.getD_some, List.dropLast_eq_take, List.tail_cons]
    have h1 : pyBound (x :: l).length 1 = 1 := by simp [pyBound]
    have h2 : pyBound (x :: l).length (-1) = l.length := by simp [pyBound]; omega
    rw [h1, h2, List.drop_take]; simp

end Chords.Spec
