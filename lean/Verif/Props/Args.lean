import Verif.Props.Names
import Mathlib.Data.List.Nodup
import Mathlib.Data.List.Perm.Lattice

/-! # C53, C96: arguments of expressions and change to state variables -/

namespace Chords.Props
open Chords.Names

variable [PyChars]
set_option linter.unusedSectionVars false

private theorem digits_inj {a b : ℕ} (h : Nat.toDigits 10 a = Nat.toDigits 10 b) : a = b := by
  have := congrArg (fun l => Nat.ofDigitChars 10 l 0) h
  simpa [Nat.ofDigitChars_ten_toDigits] using this

private theorem indexed_inj {c d : Char} {a b : ℕ} (h : indexed c a = indexed d b) : c = d ∧ a = b := by
  simp only [indexed, List.cons.injEq, true_and] at h
  exact ⟨h.1, digits_inj h.2⟩

private theorem mem_range {c : Char} {n : ℕ} {s : Name} : s ∈ Names.range c n ↔ ∃ k < n, s = indexed c k := by
  simp only [Names.range, List.mem_map, List.mem_range]
  exact ⟨fun ⟨k, h, e⟩ => ⟨k, h, e.symm⟩, fun ⟨k, h, e⟩ => ⟨k, h, e.symm⟩⟩

private theorem range_nodup (c : Char) (n : ℕ) : (Names.range c n).Nodup :=
  List.Nodup.map_on (fun _ _ _ _ h => (indexed_inj h).2) List.nodup_range

private theorem range_disjoint {c d : Char} (h : c ≠ d) (n m : ℕ) : List.Disjoint (Names.range c n) (Names.range d m) := by
  intro s h1 h2
  obtain ⟨k, -, rfl⟩ := mem_range.1 h1
  obtain ⟨k', -, e⟩ := mem_range.1 h2
  exact h (indexed_inj e).1

/-! ### The loop -/

private theorem addNew_fold (l : List Name) (l0 : List Name) :
    (∀ n, n ∈ l.foldl addNew l0 ↔ n ∈ l0 ∨ n ∈ l) ∧ (l0.Nodup → (l.foldl addNew l0).Nodup) := by
  induction l generalizing l0 with
  | nil => simp
  | cons a l ih =>
    obtain ⟨h1, h2⟩ := ih (addNew l0 a)
    rw [List.foldl_cons]
    by_cases ha : a ∈ l0
    · have e : addNew l0 a = l0 := if_pos ha
      rw [e] at h1 h2 ⊢
      refine ⟨fun n => ?_, h2⟩
      rw [h1, List.mem_cons]
      constructor
      · rintro (h | h)
        · exact .inl h
        · exact .inr (.inr h)
      · rintro (h | rfl | h)
        · exact .inl h
        · exact .inl ha
        · exact .inr h
    · have e : addNew l0 a = l0 ++ [a] := if_neg ha
      rw [e] at h1 h2 ⊢
      refine ⟨fun n => ?_, fun h => h2 ?_⟩
      · rw [h1, List.mem_append, List.mem_singleton, List.mem_cons, or_assoc]
      · rw [List.nodup_append]
        exact ⟨h, by simp, fun x hx y hy => by rintro rfl; simp at hy; exact ha (hy ▸ hx)⟩

/-- Which list each symbol goes to. -/
private inductive Kind
  | params | lam | u | x | a
  deriving DecidableEq

private def kind (e : Expected) (n : Name) : Kind :=
  if n ∉ e.q ++ e.v ++ e.u ++ e.a then if isLambda n then .lam else .params
  else if n ∈ e.u then .u
  else if n ∈ e.q ++ e.v then .x
  else .a

private def Found.get (f : Found) : Kind → List Name
  | .params => f.params
  | .lam => f.lam
  | .u => f.u
  | .x => f.x
  | .a => f.a

private theorem look_get (e : Expected) (f : Found) (n : Name) (k : Kind) :
    Found.get (look e f n) k = if kind e n = k then addNew (Found.get f k) n else Found.get f k := by
  unfold look kind
  by_cases h1 : n ∉ e.q ++ e.v ++ e.u ++ e.a
  · rw [if_pos h1, if_pos h1]
    by_cases h2 : isLambda n
    · rw [if_pos h2, if_pos h2]
      cases k <;> simp [Found.get]
    · rw [if_neg h2, if_neg h2]
      cases k <;> simp [Found.get]
  · rw [if_neg h1, if_neg h1]
    by_cases h2 : n ∈ e.u
    · rw [if_pos h2, if_pos h2]
      cases k <;> simp [Found.get]
    · rw [if_neg h2, if_neg h2]
      by_cases h3 : n ∈ e.q ++ e.v
      · rw [if_pos h3, if_pos h3]
        cases k <;> simp [Found.get]
      · rw [if_neg h3, if_neg h3]
        have h4 : n ∈ e.a := by
          by_contra h4
          apply h1
          simp only [List.mem_append, not_or] at h3 ⊢
          exact ⟨⟨h3, h2⟩, h4⟩
        rw [if_pos h4]
        cases k <;> simp [Found.get]

private theorem fold_get (e : Expected) (l : List Name) (f : Found) (k : Kind) :
    Found.get (l.foldl (look e) f) k = (l.filter fun n => kind e n = k).foldl addNew (Found.get f k) := by
  induction l generalizing f with
  | nil => rfl
  | cons n l ih =>
    rw [List.foldl_cons, ih, look_get]
    by_cases h : kind e n = k
    · simp [h]
    · simp [h]

private theorem foldl_flatten (e : Expected) (sets : List (List Name)) (f : Found) :
    sets.foldl (fun f s => s.foldl (look e) f) f = sets.flatten.foldl (look e) f := by
  induction sets generalizing f with
  | nil => rfl
  | cons s sets ih => rw [List.foldl_cons, ih, List.flatten_cons, List.foldl_append]

private def run (e : Expected) (syms : List Name) (k : Kind) : List Name := Found.get (syms.foldl (look e) {}) k

private theorem mem_run (e : Expected) (syms : List Name) (k : Kind) (n : Name) :
    n ∈ run e syms k ↔ n ∈ syms ∧ kind e n = k := by
  rw [run, fold_get, (addNew_fold _ _).1]
  have : Found.get {} k = [] := by cases k <;> rfl
  simp [this]

private theorem run_nodup (e : Expected) (syms : List Name) (k : Kind) : (run e syms k).Nodup := by
  rw [run, fold_get]
  refine (addNew_fold _ _).2 ?_
  have : Found.get {} k = [] := by cases k <;> rfl
  simp [this]

private theorem sort_perm (l : List Name) : (sortNames l).Perm l := List.perm_insertionSort _ l

private theorem sort_eq {l l' : List Name} (h : l.Perm l') : sortNames l = sortNames l' := by
  refine List.Perm.eq_of_pairwise' (r := (· ≤ ·)) (List.pairwise_insertionSort _ l) (List.pairwise_insertionSort _ l') ?_
  exact (sort_perm l).trans (h.trans (sort_perm l').symm)

private theorem mem_sort {l : List Name} {n : Name} : n ∈ sortNames l ↔ n ∈ l := (sort_perm l).mem_iff

private theorem run_perm (e : Expected) {syms syms' : List Name} (h : ∀ n, n ∈ syms ↔ n ∈ syms') (k : Kind) :
    (run e syms k).Perm (run e syms' k) := by
  rw [List.perm_ext_iff_of_nodup (run_nodup e syms k) (run_nodup e syms' k)]
  intro n
  rw [mem_run, mem_run, h]

/-- What is returned. -/
private theorem find_eq {sets : List (List Name)} {q : QVars} {u : UVars} {sl sa : Bool} {r : Args}
    (h : findArguments sets q u sl sa = .ok r) : ∃ e : Expected, expectedQ q = .ok (e.q, e.v, e.a) ∧
      expectedU sets.flatten.length u = .ok e.u ∧ r = report e u sl sa (sets.flatten.foldl (look e) {}) := by
  unfold findArguments at h
  cases hq : expectedQ q with
  | error x => simp [hq] at h
  | ok p =>
    obtain ⟨qs, vs, as⟩ := p
    cases hu : expectedU (sets.map List.length).sum u with
    | error x => simp [hq, hu] at h
    | ok us =>
      simp only [hq, hu, Except.ok.injEq] at h
      exact ⟨⟨qs, vs, as, us⟩, rfl, by rw [List.length_flatten, hu], by rw [← h, foldl_flatten]⟩

private theorem report_eq (e : Expected) (u : UVars) (sl sa : Bool) (syms : List Name) :
    report e u sl sa (syms.foldl (look e) {}) = {
      q := e.q, v := e.v, a := if sa then e.a else [],
      u := reportU u e.u (sortNames (run e syms .u)),
      params := sortNames ((if sl then run e syms .params else run e syms .params ++ sortNames (run e syms .lam)) ++
        if sa then [] else sortNames (run e syms .a)),
      lam := if sl then sortNames (run e syms .lam) else [] } := by
  cases sl <;> cases sa <;> simp [report, run, Found.get]

/-- Groups that are not asked for are empty. -/
theorem find_groups {sets : List (List Name)} {q : QVars} {u : UVars} {sl sa : Bool} {r : Args}
    (h : findArguments sets q u sl sa = .ok r) : (sa = false → r.a = []) ∧ (sl = false → r.lam = []) := by
  obtain ⟨e, -, -, rfl⟩ := find_eq h
  rw [report_eq]
  exact ⟨fun h => by simp [h], fun h => by simp [h]⟩

/-- Accelerations that are not separated are added to the parameters. -/
theorem find_merge {sets : List (List Name)} {q : QVars} {u : UVars} {sl : Bool} {r r' : Args}
    (h : findArguments sets q u sl false = .ok r) (h' : findArguments sets q u sl true = .ok r') :
    r.q = r'.q ∧ r.v = r'.v ∧ r.u = r'.u ∧ r.lam = r'.lam ∧ ∃ accs, r.params.Perm (r'.params ++ accs) ∧
      (accs = [] → r.params = r'.params) ∧ (∀ n ∈ accs, n ∈ r'.a ∧ n ∈ sets.flatten) ∧
      ∀ n ∈ sets.flatten, n ∈ r'.a → n ∉ r'.q ++ r'.v ++ r'.u → n ∈ accs := by
  obtain ⟨e, q1, u1, rfl⟩ := find_eq h
  obtain ⟨e', q2, u2, rfl⟩ := find_eq h'
  have he : e = e' := by
    rw [q1] at q2
    rw [u1] at u2
    simp only [Except.ok.injEq, Prod.mk.injEq] at q2 u2
    cases e; cases e'
    simp_all
  subst he
  simp only [report_eq]
  refine ⟨trivial, trivial, trivial, trivial, sortNames (run e sets.flatten .a), ?_, ?_, ?_, ?_⟩
  · simp only [Bool.false_eq_true, if_false, if_true, List.append_nil]
    exact (sort_perm _).trans (List.Perm.append_right _ (sort_perm _).symm)
  · intro h0
    simp only [Bool.false_eq_true, if_false, if_true, h0]
  · intro n hn
    rw [mem_sort, mem_run] at hn
    refine ⟨?_, hn.1⟩
    simp only [if_true]
    have hk := hn.2
    unfold kind at hk
    by_contra hna
    split_ifs at hk with k1 k2 k3 k4
    simp only [List.mem_append] at k1 k3
    tauto
  · intro n h1 h2 h3
    rw [mem_sort, mem_run]
    refine ⟨h1, ?_⟩
    simp only [if_true] at h2
    have hu : n ∉ e.u := by
      intro hu
      have hk : kind e n = .u := by
        unfold kind
        rw [if_neg (by simp [hu]), if_pos hu]
      have : n ∈ reportU u e.u (sortNames (run e sets.flatten .u)) := by
        cases u with
        | none => exact mem_sort.2 (mem_sort.2 ((mem_run _ _ _ _).2 ⟨h1, hk⟩))
        | int n => exact hu
        | list l => exact hu
        | other => exact hu
      exact h3 (List.mem_append_right _ this)
    unfold kind
    rw [if_neg (by simp [h2]), if_neg hu, if_neg fun h4 => h3 (List.mem_append_left _ h4)]

/-- C53: the result does not depend on the order in which the symbols and the expressions are visited. -/
theorem C53_order {sets sets' : List (List Name)} (h : sets.flatten.Perm sets'.flatten) (q : QVars) (u : UVars) (sl sa : Bool) :
    findArguments sets q u sl sa = findArguments sets' q u sl sa := by
  have hl : (sets.map List.length).sum = (sets'.map List.length).sum := by
    rw [← List.length_flatten, ← List.length_flatten, h.length_eq]
  unfold findArguments
  rw [hl]
  cases expectedQ q with
  | error x => rfl
  | ok p =>
    obtain ⟨qs, vs, as⟩ := p
    cases hu : expectedU ((sets'.map List.length).sum) u with
    | error x => simp only [hu]
    | ok us =>
      simp only [hu, foldl_flatten, report_eq]
      have hp := fun k => run_perm ⟨qs, vs, as, us⟩ (fun n => h.mem_iff) k (syms := sets.flatten) (syms' := sets'.flatten)
      have hs := fun k => sort_eq (hp k)
      simp only [hs, Except.ok.injEq, Args.mk.injEq, true_and, and_true]
      refine sort_eq (List.Perm.append ?_ (List.Perm.refl _))
      cases sl
      · exact (hp _).append (List.Perm.refl _)
      · exact hp _

/-- C53: no symbol of the expressions is lost. -/
theorem C53_cover {sets : List (List Name)} {q : QVars} {u : UVars} {sl sa : Bool} {r : Args}
    (h : findArguments sets q u sl sa = .ok r) {s : List Name} (hs : s ∈ sets) {n : Name} (hn : n ∈ s) :
    n ∈ r.q ++ r.v ++ r.a ++ r.u ++ r.params ++ r.lam := by
  obtain ⟨e, -, -, rfl⟩ := find_eq h
  have hm : n ∈ sets.flatten := List.mem_flatten.2 ⟨s, hs, hn⟩
  rw [report_eq]
  have hk := fun k => mem_run e sets.flatten k n
  simp only [List.mem_append, mem_sort]
  cases hkk : kind e n with
  | params =>
    have := (hk .params).2 ⟨hm, hkk⟩
    cases sl <;> simp [this]
  | lam =>
    have := (hk .lam).2 ⟨hm, hkk⟩
    cases sl <;> simp [this, mem_sort]
  | a =>
    have := (hk .a).2 ⟨hm, hkk⟩
    cases sa
    · simp [this, mem_sort]
    · have ha : n ∈ e.a := by
        unfold kind at hkk
        by_contra ha
        split at hkk
        · split at hkk <;> cases hkk
        · rename_i h1
          split at hkk
          · cases hkk
          · rename_i h2
            split at hkk
            · cases hkk
            · rename_i h3
              apply h1
              simp only [List.mem_append, not_or] at h3 ⊢
              exact ⟨⟨h3, h2⟩, ha⟩
      simp [ha]
  | u =>
    have hr := (hk .u).2 ⟨hm, hkk⟩
    have hu : n ∈ e.u := by
      unfold kind at hkk
      split at hkk
      · split at hkk <;> cases hkk
      · split at hkk
        · rename_i h; exact h
        · split at hkk <;> cases hkk
    cases u <;> simp [reportU, hr, hu, mem_sort]
  | x =>
    have hx : n ∈ e.q ++ e.v := by
      unfold kind at hkk
      split at hkk
      · split at hkk <;> cases hkk
      · split at hkk
        · cases hkk
        · split at hkk
          · rename_i h; exact h
          · cases hkk
    rw [List.mem_append] at hx
    exact .inl (.inl (.inl (.inl hx)))

/-- C53: the parameters and the multipliers are symbols of the expressions, and so are the controls when they are not given. -/
theorem C53_found {sets : List (List Name)} {q : QVars} {u : UVars} {sl sa : Bool} {r : Args}
    (h : findArguments sets q u sl sa = .ok r) {n : Name}
    (hn : n ∈ r.params ++ r.lam ∨ u = .none ∧ n ∈ r.u) : ∃ s ∈ sets, n ∈ s := by
  obtain ⟨e, -, -, rfl⟩ := find_eq h
  rw [report_eq] at hn
  have hk := fun k => mem_run e sets.flatten k n
  rw [← List.mem_flatten]
  rcases hn with hn | ⟨rfl, hn⟩
  · cases sl <;> cases sa <;> simp only [List.mem_append, mem_sort, hk, Bool.false_eq_true, if_false, if_true, List.not_mem_nil, or_false] at hn
    · rcases hn with (hn | hn) | hn <;> exact hn.1
    · rcases hn with hn | hn <;> exact hn.1
    · rcases hn with (hn | hn) | hn <;> exact hn.1
    · rcases hn with hn | hn <;> exact hn.1
  · simp only [reportU, mem_sort, hk] at hn
    exact hn.1

private theorem nodup_of {e : Expected} (hd : (e.q ++ e.v ++ e.a ++ e.u).Nodup) (u : UVars) (sl sa : Bool) (syms : List Name) (r : Args)
    (hr : r = report e u sl sa (syms.foldl (look e) {})) : (r.q ++ r.v ++ r.a ++ r.u ++ r.params ++ r.lam).Nodup := by
  rw [report_eq] at hr
  have hk := mem_run e syms
  have hkind : ∀ {n}, n ∈ e.q ++ e.v ++ e.a ++ e.u → kind e n ≠ .params ∧ kind e n ≠ .lam := by
    intro n hn
    have h1 : n ∈ e.q ++ e.v ++ e.u ++ e.a := by
      simp only [List.mem_append] at hn ⊢
      rcases hn with (h | h) | h
      · exact .inl (.inl h)
      · exact .inr h
      · exact .inl (.inr h)
    unfold kind
    rw [if_neg (not_not.2 h1)]
    split
    · simp
    · split <;> simp
  have hkq : ∀ {n}, n ∈ e.q ++ e.v ++ e.u → kind e n ≠ .a := by
    intro n hn
    have h1 : n ∈ e.q ++ e.v ++ e.u ++ e.a := List.mem_append_left _ hn
    unfold kind
    rw [if_neg (not_not.2 h1)]
    split
    · simp
    · rename_i h2
      rw [if_pos]
      · simp
      · rcases List.mem_append.1 hn with h | h
        · exact h
        · exact absurd h h2
  have hku : ∀ {n}, kind e n = .u → n ∈ e.u := by
    intro n hkk
    unfold kind at hkk
    split at hkk
    · split at hkk <;> cases hkk
    · split at hkk
      · rename_i h; exact h
      · split at hkk <;> cases hkk
  -- the found parameters
  have hrest : (r.params ++ r.lam).Nodup ∧ ∀ n ∈ r.params ++ r.lam, kind e n = .params ∨ kind e n = .lam ∨ kind e n = .a ∧ sa = false := by
    have hp : (r.params ++ r.lam).Perm ((run e syms .params ++ run e syms .lam) ++ if sa then [] else run e syms .a) := by
      rw [hr]
      cases sl <;> cases sa <;> simp only [Bool.false_eq_true, if_false, if_true, List.append_nil]
      · exact (sort_perm _).trans (((List.Perm.refl _).append (sort_perm _)).append (sort_perm _))
      · exact (sort_perm _).trans ((List.Perm.refl _).append (sort_perm _))
      · refine ((sort_perm _).append (sort_perm _)).trans ?_
        refine (((List.Perm.refl _).append (sort_perm _)).append (List.Perm.refl _)).trans ?_
        rw [List.append_assoc, List.append_assoc]
        exact (List.Perm.refl _).append List.perm_append_comm
      · exact (sort_perm _).append (sort_perm _)
    constructor
    · rw [hp.nodup_iff]
      have hpl : (run e syms .params ++ run e syms .lam).Nodup := by
        rw [List.nodup_append]
        refine ⟨run_nodup _ _ _, run_nodup _ _ _, fun a ha b hb => ?_⟩
        rintro rfl
        rw [hk] at ha hb
        rw [ha.2] at hb
        simp at hb
      cases sa
      · simp only [Bool.false_eq_true, if_false]
        rw [List.nodup_append]
        refine ⟨hpl, run_nodup _ _ _, fun a ha b hb => ?_⟩
        rintro rfl
        rw [List.mem_append, hk, hk] at ha
        rw [hk] at hb
        rcases ha with ha | ha
        · rw [ha.2] at hb; simp at hb
        · rw [ha.2] at hb; simp at hb
      · simpa using hpl
    · intro n hn
      rw [hp.mem_iff] at hn
      cases sa
      · simp only [Bool.false_eq_true, if_false, List.mem_append, hk] at hn
        rcases hn with (h | h) | h
        · exact .inl h.2
        · exact .inr (.inl h.2)
        · exact .inr (.inr ⟨h.2, rfl⟩)
      · simp only [if_true, List.append_nil, List.mem_append, hk] at hn
        rcases hn with h | h
        · exact .inl h.2
        · exact .inr (.inl h.2)
  -- the controls
  have hu : r.u.Nodup ∧ ∀ n ∈ r.u, n ∈ e.u := by
    rw [hr]
    have hnd : e.u.Nodup := (List.nodup_append.1 hd).2.1
    cases u with
    | none =>
      refine ⟨?_, fun n hn => ?_⟩
      · exact (sort_perm _).nodup_iff.2 ((sort_perm _).nodup_iff.2 (run_nodup _ _ _))
      · simp only [reportU, mem_sort, hk] at hn
        exact hku hn.2
    | int _ => exact ⟨hnd, fun n hn => hn⟩
    | list _ => exact ⟨hnd, fun n hn => hn⟩
    | other => exact ⟨hnd, fun n hn => hn⟩
  have hq : r.q = e.q ∧ r.v = e.v ∧ r.a = if sa then e.a else [] := by rw [hr]; simp
  rw [List.append_assoc _ r.params, List.nodup_append]
  have hfirst : (r.q ++ r.v ++ r.a).Nodup ∧ ∀ n ∈ r.q ++ r.v ++ r.a, n ∈ e.q ++ e.v ∨ n ∈ e.a ∧ sa = true := by
    rw [hq.1, hq.2.1, hq.2.2]
    have h3 := (List.nodup_append.1 hd).1
    cases sa
    · refine ⟨by simpa using (List.nodup_append.1 h3).1, fun n hn => ?_⟩
      simp only [Bool.false_eq_true, if_false, List.append_nil] at hn
      exact .inl hn
    · refine ⟨by simpa using h3, fun n hn => ?_⟩
      simp only [if_true] at hn
      rcases List.mem_append.1 hn with h | h
      · exact .inl h
      · exact .inr ⟨h, rfl⟩
  refine ⟨?_, hrest.1, ?_⟩
  · rw [List.nodup_append]
    refine ⟨hfirst.1, hu.1, fun a ha b hb => ?_⟩
    rintro rfl
    refine (List.nodup_append.1 hd).2.2 a ?_ a (hu.2 a hb) rfl
    rcases hfirst.2 a ha with h | h
    · exact List.mem_append_left _ h
    · exact List.mem_append_right _ h.1
  · intro a ha b hb
    rintro rfl
    have hin : a ∈ e.q ++ e.v ++ e.a ++ e.u := by
      rcases List.mem_append.1 ha with ha | ha
      · rcases hfirst.2 a ha with h | h
        · exact List.mem_append_left _ (List.mem_append_left _ h)
        · exact List.mem_append_left _ (List.mem_append_right _ h.1)
      · exact List.mem_append_right _ (hu.2 a ha)
    rcases hrest.2 a hb with h | h | ⟨h, hsa⟩
    · exact (hkind hin).1 h
    · exact (hkind hin).2 h
    · refine hkq (n := a) ?_ h
      rcases List.mem_append.1 ha with ha | ha
      · rcases hfirst.2 a ha with h' | h'
        · exact List.mem_append_left _ h'
        · rw [hsa] at h'; simp at h'
      · exact List.mem_append_right _ (hu.2 a ha)

/-- C53, for coordinates and controls given by their number: every symbol is in one group only, once. -/
theorem C53_disjoint {sets : List (List Name)} {nq : ℕ} {u : UVars} (hu : u = .none ∨ ∃ n, u = .int n) {sl sa : Bool} {r : Args}
    (h : findArguments sets (.int nq) u sl sa = .ok r) : (r.q ++ r.v ++ r.a ++ r.u ++ r.params ++ r.lam).Nodup := by
  obtain ⟨e, hq, hu', hr⟩ := find_eq h
  refine nodup_of ?_ u sl sa _ r hr
  have hq' : e.q = Names.range 'q' nq ∧ e.v = Names.range 'v' nq ∧ e.a = Names.range 'a' nq := by
    simp only [expectedQ, Except.ok.injEq, Prod.mk.injEq] at hq
    exact ⟨hq.1.symm, hq.2.1.symm, hq.2.2.symm⟩
  obtain ⟨m, hm⟩ : ∃ m, e.u = Names.range 'u' m := by
    rcases hu with rfl | ⟨n, rfl⟩
    · simp only [expectedU, Except.ok.injEq] at hu'
      exact ⟨_, hu'.symm⟩
    · simp only [expectedU, Except.ok.injEq] at hu'
      exact ⟨_, hu'.symm⟩
  rw [hq'.1, hq'.2.1, hq'.2.2, hm]
  have d1 := range_disjoint (c := 'q') (d := 'v') (by decide) nq nq
  have d2 := range_disjoint (c := 'q') (d := 'a') (by decide) nq nq
  have d3 := range_disjoint (c := 'v') (d := 'a') (by decide) nq nq
  have d4 := range_disjoint (c := 'q') (d := 'u') (by decide) nq m
  have d5 := range_disjoint (c := 'v') (d := 'u') (by decide) nq m
  have d6 := range_disjoint (c := 'a') (d := 'u') (by decide) nq m
  rw [List.nodup_append', List.nodup_append', List.nodup_append']
  refine ⟨⟨⟨range_nodup _ _, range_nodup _ _, d1⟩, range_nodup _ _, ?_⟩, range_nodup _ _, ?_⟩
  · exact List.disjoint_append_left.2 ⟨d2, d3⟩
  · exact List.disjoint_append_left.2 ⟨List.disjoint_append_left.2 ⟨d4, d5⟩, d6⟩

/-- C53: what each group holds, when the coordinates are given by their number and the controls are searched. -/
theorem C53_groups {sets : List (List Name)} {nq : ℕ} {r : Args} (h : findArguments sets (.int nq) .none true true = .ok r) (n : Name) :
    (n ∈ r.u ↔ (∃ s ∈ sets, n ∈ s) ∧ ∃ k < (sets.map List.length).sum, n = indexed 'u' k) ∧
    (n ∈ r.lam → ∃ ds : Name, ds ≠ [] ∧ (∀ d ∈ ds, PyChars.digit d = true) ∧ n.take (3 + ds.length) = 'l' :: 'a' :: 'm' :: ds) ∧
    r.q = (List.range nq).map (indexed 'q') ∧ r.v = (List.range nq).map (indexed 'v') ∧ r.a = (List.range nq).map (indexed 'a') := by
  obtain ⟨e, hq, hu, hr⟩ := find_eq h
  simp only [expectedQ, Except.ok.injEq, Prod.mk.injEq] at hq
  simp only [expectedU, Except.ok.injEq] at hu
  rw [report_eq] at hr
  refine ⟨?_, ?_, by rw [hr]; exact hq.1.symm, by rw [hr]; exact hq.2.1.symm, by rw [hr]; exact hq.2.2.symm⟩
  · rw [hr]
    simp only [reportU, mem_sort, mem_run, List.mem_flatten]
    rw [← List.length_flatten, ← mem_range, hu]
    refine and_congr_right fun _ => ?_
    constructor
    · intro hkk
      unfold kind at hkk
      split at hkk
      · split at hkk <;> cases hkk
      · split at hkk
        · rename_i h; exact h
        · split at hkk <;> cases hkk
    · intro hm
      unfold kind
      rw [if_neg, if_pos hm]
      simp [hm]
  · intro hn
    rw [hr] at hn
    simp only [if_true, mem_sort, mem_run] at hn
    have hl : isLambda n = true := by
      have hkk := hn.2
      unfold kind at hkk
      split at hkk
      · split at hkk
        · rename_i h; exact h
        · cases hkk
      · split at hkk
        · cases hkk
        · split at hkk <;> cases hkk
    unfold isLambda at hl
    obtain ⟨m, hm, hpre⟩ : ∃ m, m = (if n.drop (n.length - 3) = ['(', 't', ')'] then n.take (n.length - 3) else n) ∧ m <+: n := by
      refine ⟨_, rfl, ?_⟩
      split
      · exact List.take_prefix _ _
      · exact List.prefix_refl _
    rw [← hm] at hl
    simp only [Bool.and_eq_true, decide_eq_true_eq, Bool.not_eq_true', List.isEmpty_eq_false_iff, List.all_eq_true] at hl
    refine ⟨m.drop 3, hl.2.1, hl.2.2, ?_⟩
    have e1 : 'l' :: 'a' :: 'm' :: m.drop 3 = m := by
      rw [← List.take_append_drop 3 m, hl.1]
      simp
    have e2 : 3 + (m.drop 3).length = m.length := by
      conv_rhs => rw [← e1]
      simp; omega
    rw [e1, e2]
    exact (List.prefix_iff_eq_take.1 hpre).symm

/-- Coordinates given by their number. -/
theorem find_int {sets : List (List Name)} {nq : ℕ} {sl sa : Bool} {r : Args} (h : findArguments sets (.int nq) .none sl sa = .ok r) :
    r.q = Names.range 'q' nq ∧ r.v = Names.range 'v' nq ∧ ∀ n ∈ r.u, ∃ k, n = indexed 'u' k := by
  obtain ⟨e, hq, hu, hr⟩ := find_eq h
  simp only [expectedQ, Except.ok.injEq, Prod.mk.injEq] at hq
  simp only [expectedU, Except.ok.injEq] at hu
  rw [report_eq] at hr
  refine ⟨by rw [hr]; exact hq.1.symm, by rw [hr]; exact hq.2.1.symm, fun n hn => ?_⟩
  rw [hr] at hn
  simp only [reportU, mem_sort, mem_run] at hn
  have hkk := hn.2
  unfold kind at hkk
  have hm : n ∈ e.u := by
    split at hkk
    · split at hkk <;> cases hkk
    · split at hkk
      · assumption
      · split at hkk <;> cases hkk
  rw [← hu] at hm
  obtain ⟨k, -, hk⟩ := mem_range.1 hm
  exact ⟨k, hk⟩

/-- The groups for numbers of coordinates and controls. -/
theorem find_ints {sets : List (List Name)} {nq nu : ℕ} {sl sa : Bool} {r : Args} (h : findArguments sets (.int nq) (.int nu) sl sa = .ok r) :
    r.q = Names.range 'q' nq ∧ r.v = Names.range 'v' nq ∧ r.u = Names.range 'u' nu := by
  obtain ⟨e, hq, hu, hr⟩ := find_eq h
  simp only [expectedQ, Except.ok.injEq, Prod.mk.injEq] at hq
  simp only [expectedU, Except.ok.injEq] at hu
  rw [report_eq] at hr
  exact ⟨by rw [hr]; exact hq.1.symm, by rw [hr]; exact hq.2.1.symm, by rw [hr]; exact hu.symm⟩

/-- C53: every symbol `lam` with a number is among the multipliers when they are separated. -/
theorem C53_lambda {sets : List (List Name)} {nq : ℕ} {u : UVars} (hu : u = .none ∨ ∃ n, u = .int n) {sa : Bool} {r : Args}
    (h : findArguments sets (.int nq) u true sa = .ok r) {ds : Name} (h0 : ds ≠ []) (hd : ∀ d ∈ ds, d.isDigit = true)
    {s : List Name} (hs : s ∈ sets) (hm : 'l' :: 'a' :: 'm' :: ds ∈ s) : 'l' :: 'a' :: 'm' :: ds ∈ r.lam := by
  obtain ⟨e, hq, hu', hr⟩ := find_eq h
  obtain ⟨m, hm'⟩ : ∃ m, e.u = Names.range 'u' m := by
    rcases hu with rfl | ⟨n, rfl⟩
    · simp only [expectedU, Except.ok.injEq] at hu'
      exact ⟨_, hu'.symm⟩
    · simp only [expectedU, Except.ok.injEq] at hu'
      exact ⟨_, hu'.symm⟩
  simp only [expectedQ, Except.ok.injEq, Prod.mk.injEq] at hq
  rw [report_eq] at hr
  rw [hr]
  simp only [if_true, mem_sort, mem_run]
  refine ⟨List.mem_flatten.2 ⟨s, hs, hm⟩, ?_⟩
  have hlast : ∀ k, ('l' :: 'a' :: 'm' :: ds).drop k ≠ ['(', 't', ')'] := by
    intro k hk
    have hk' : ∀ j, ds.drop j ≠ ['(', 't', ')'] := by
      intro j hj
      have h1 : ')' ∈ ds.drop j := by rw [hj]; simp
      have := hd _ (List.mem_of_mem_drop h1)
      revert this
      decide
    match k with
    | 0 => simp at hk
    | 1 => simp at hk
    | 2 => simp at hk
    | k + 3 => exact hk' k (by simpa using hk)
  have hl : isLambda ('l' :: 'a' :: 'm' :: ds) = true := by
    unfold isLambda
    rw [if_neg (hlast _)]
    simp only [List.take_succ_cons, List.take_zero, decide_true, List.drop_succ_cons, List.drop_zero, Bool.true_and, Bool.and_eq_true,
      Bool.not_eq_true', List.isEmpty_eq_false_iff, List.all_eq_true]
    exact ⟨h0, fun d hdd => PyChars.ascii d (hd d hdd)⟩
  have hnot : 'l' :: 'a' :: 'm' :: ds ∉ e.q ++ e.v ++ e.u ++ e.a := by
    rw [← hq.1, ← hq.2.1, ← hq.2.2, hm']
    simp only [List.mem_append, mem_range, indexed]
    simp
  unfold kind
  rw [if_pos hnot, if_pos hl]

/-- C53: when coordinates are given by their number, the coordinate `q_i` and its derivatives get the symbols at place `i`. -/
theorem C53_places {sets : List (List Name)} {nq : ℕ} {u : UVars} {sl : Bool} {r : Args}
    (h : findArguments sets (.int nq) u sl true = .ok r) {i : ℕ} (hi : i < nq) :
    rename (.dyn (indexed 'q' i) 0) = .ok (r.q.getD i []) ∧ rename (.dyn (indexed 'q' i) 1) = .ok (r.v.getD i []) ∧
      rename (.dyn (indexed 'q' i) 2) = .ok (r.a.getD i []) := by
  obtain ⟨e, hq, -, hr⟩ := find_eq h
  simp only [expectedQ, Except.ok.injEq, Prod.mk.injEq] at hq
  rw [report_eq] at hr
  have hget : ∀ c, (Names.range c nq).getD i [] = indexed c i := by
    intro c
    simp [Names.range, hi]
  have hQ : isQ (indexed 'q' i) = .ok true := by simp [isQ, indexed]
  rw [hr]
  simp only [if_true, ← hq.1, ← hq.2.1, ← hq.2.2, hget]
  refine ⟨?_, ?_, ?_⟩
  · change Except.ok (stdName (indexed 'q' i)) = _
    rw [indexed, std_other (long_not_short _ _)]
  · have : rename (.dyn (indexed 'q' i) 1) = .ok (stdName (indexed 'v' i)) := by
      simp only [rename, diffToSymb, hQ, Except.map]
      rfl
    rw [this, indexed, std_other (long_not_short _ _)]
  · have : rename (.dyn (indexed 'q' i) 2) = .ok (stdName (indexed 'a' i)) := by
      simp only [rename, diffToSymb, hQ, Except.map]
      rfl
    rw [this, indexed, std_other (long_not_short _ _)]

/-- Names for which a list of coordinates works. -/
structure Plain (n : Name) : Prop where
  nonempty : n ≠ []
  notQ : n ≠ ['q']
  free : ¬Reserved n
  long : ¬Short n
  notU : ∀ k, n ≠ indexed 'u' k

private def symbOf (l : ℕ) (n : Name) : Name :=
  match diffToSymb (.dyn n l) with
  | .ok s => s
  | .error _ => []

private theorem symbOf_eq {n : Name} (h : Plain n) (l : ℕ) : diffToSymb (.dyn n l) = .ok (symbOf l n) := by
  obtain ⟨s, hs⟩ := (C51_total (.dyn n l) h.nonempty).2 (.inl h.notQ)
  simp only [symbOf, hs]

private theorem symbOf_inj {n m : Name} (hn : Plain n) (hm : Plain m) {k l : ℕ} (h : symbOf k n = symbOf l m) : n = m ∧ k = l :=
  C51_partial (x := .dyn n k) (y := .dyn m l) hn.free hm.free (symbOf_eq hn k) (h ▸ symbOf_eq hm l)

private theorem symbOf_notU {n : Name} (h : Plain n) (l k : ℕ) : symbOf l n ≠ indexed 'u' k := by
  intro he
  have hs := symbOf_eq h l
  match l with
  | 0 =>
    simp only [diffToSymb, Except.ok.injEq] at hs
    exact h.notU k (hs.trans he)
  | l + 1 =>
    rw [he] at hs
    cases hq : isQ n with
    | error e => simp [diffToSymb, hq, Except.map] at hs
    | ok b =>
      simp only [diffToSymb, hq, Except.map, Except.ok.injEq] at hs
      cases b with
      | true =>
        simp only [derivName, if_true] at hs
        split at hs
        · simp [indexed] at hs
        · split at hs <;> simp [indexed] at hs
      | false =>
        have hl : 't' ∈ Nat.toDigits 10 k := by
          have h1 : (indexed 'u' k).getLast? = some 't' := by
            rw [← hs]
            have : ∀ j, (dots (j + 1)).getLast? = some 't' := by
              intro j
              induction j with
              | zero => rfl
              | succ j ih => simpa [dots] using ih
            simp only [derivName, Bool.false_eq_true, if_false]
            rw [List.getLast?_append, this]
            rfl
          have h2 : (indexed 'u' k).getLast? = (Nat.toDigits 10 k).getLast? := by
            have h0 := Nat.toDigits_ne_nil (n := k) (b := 10)
            obtain ⟨a, t, e⟩ := List.exists_cons_of_ne_nil h0
            simp [indexed, e, List.getLast?_cons_cons]
          rw [h2] at h1
          exact List.mem_of_getLast? h1
        have := Nat.isDigit_of_mem_toDigits (by omega) (by omega) hl
        exact absurd this (by decide)

/-- Controls that are found, given by their number, or given as different symbols none of which stands for a coordinate, velocity or acceleration. -/
def FitU (l : List Name) : UVars → Prop
  | .none => True
  | .int _ => True
  | .list us => us.Nodup ∧ ∀ s ∈ us, ∀ n ∈ l, ∀ k ≤ 2, rename (.dyn n k) ≠ .ok s
  | .other => False

/-- C53, for coordinates given as a list of dynamic symbols with names that are not those of derivatives or controls, nor short: every symbol is in
one group only, and each coordinate and its derivatives get the symbols at its place. -/
theorem C53_names_partial {sets : List (List Name)} {l : List Name} (hl : ∀ n ∈ l, Plain n) (hnd : l.Nodup) {u : UVars}
    (hu : FitU l u) (sl sa : Bool) : ∃ r, findArguments sets (.list l) u sl sa = .ok r ∧
      (r.q ++ r.v ++ r.a ++ r.u ++ r.params ++ r.lam).Nodup ∧ r.q.length = l.length ∧ r.v.length = l.length ∧
      (sa = true → r.a.length = l.length) ∧
      ∀ i n, l[i]? = some n → rename (.dyn n 0) = .ok (r.q.getD i []) ∧ rename (.dyn n 1) = .ok (r.v.getD i []) ∧
        (sa = true → rename (.dyn n 2) = .ok (r.a.getD i [])) := by
  have hE : expectedQ (.list l) = .ok (l.map (symbOf 0), l.map (symbOf 1), l.map (symbOf 2)) := by
    simp only [expectedQ, Exc.mapM_eq fun n hn => symbOf_eq (hl n hn) 0, Exc.mapM_eq fun n hn => symbOf_eq (hl n hn) 1,
      Exc.mapM_eq fun n hn => symbOf_eq (hl n hn) 2]
    rfl
  have hren : ∀ n ∈ l, ∀ k, rename (.dyn n k) = .ok (symbOf k n) := by
    intro n hn k
    have h1 := symbOf_eq (hl n hn) k
    simp only [rename, h1, Except.map]
    rw [std_other (deriv_not_short (hl n hn).long h1)]
  obtain ⟨us, hm, nu, du⟩ : ∃ us, expectedU (sets.map List.length).sum u = .ok us ∧ us.Nodup ∧
      ∀ k ≤ 2, List.Disjoint (l.map (symbOf k)) us := by
    have h1 : ∀ m, ∀ k ≤ 2, List.Disjoint (l.map (symbOf k)) (Names.range 'u' m) := by
      intro m k _ s h1 h2
      obtain ⟨x, hx, rfl⟩ := List.mem_map.1 h1
      obtain ⟨j, -, he⟩ := mem_range.1 h2
      exact symbOf_notU (hl x hx) k j he
    cases u with
    | none => exact ⟨_, rfl, range_nodup _ _, h1 _⟩
    | int n => exact ⟨_, rfl, range_nodup _ _, h1 _⟩
    | list us =>
      refine ⟨us, rfl, hu.1, fun k hk s h2 h3 => ?_⟩
      obtain ⟨x, hx, rfl⟩ := List.mem_map.1 h2
      exact hu.2 _ h3 x hx k hk (hren x hx k)
    | other => exact hu.elim
  have hf : ∃ r, findArguments sets (.list l) u sl sa = .ok r := by
    unfold findArguments
    simp only [hE, hm]
    exact ⟨_, rfl⟩
  obtain ⟨r, hr⟩ := hf
  obtain ⟨e, hq, hu', hr'⟩ := find_eq hr
  rw [hE] at hq
  simp only [Except.ok.injEq, Prod.mk.injEq] at hq
  rw [List.length_flatten, hm] at hu'
  simp only [Except.ok.injEq] at hu'
  have nd : ∀ k, (l.map (symbOf k)).Nodup := fun k =>
    List.Nodup.map_on (fun x hx y hy h => (symbOf_inj (hl x hx) (hl y hy) h).1) hnd
  have dj : ∀ {j k}, j ≠ k → List.Disjoint (l.map (symbOf j)) (l.map (symbOf k)) := by
    intro j k hjk s h1 h2
    obtain ⟨x, hx, rfl⟩ := List.mem_map.1 h1
    obtain ⟨y, hy, he⟩ := List.mem_map.1 h2
    exact hjk (symbOf_inj (hl y hy) (hl x hx) he).2.symm
  have hr2 := hr'
  rw [report_eq] at hr2
  refine ⟨r, hr, nodup_of ?_ u sl sa _ r hr', by rw [hr2]; simp [← hq.1], by rw [hr2]; simp [← hq.2.1],
    fun hsa => by rw [hr2]; simp [hsa, ← hq.2.2], fun i n hi => ?_⟩
  · rw [← hq.1, ← hq.2.1, ← hq.2.2, ← hu', List.nodup_append', List.nodup_append', List.nodup_append']
    refine ⟨⟨⟨nd 0, nd 1, dj (by decide)⟩, nd 2, ?_⟩, nu, ?_⟩
    · exact List.disjoint_append_left.2 ⟨dj (by decide), dj (by decide)⟩
    · exact List.disjoint_append_left.2 ⟨List.disjoint_append_left.2 ⟨du 0 (by decide), du 1 (by decide)⟩, du 2 (by decide)⟩
  · have hget : ∀ k, (l.map (symbOf k)).getD i [] = symbOf k n := by
      intro k
      simp [List.getD_eq_getElem?_getD, hi]
    have hren := hren n (List.mem_of_getElem? hi)
    rw [hr2]
    refine ⟨by simp only [← hq.1, hget, hren], by simp only [← hq.2.1, hget, hren], fun hsa => ?_⟩
    simp only [hsa, if_true, ← hq.2.2, hget, hren]

/-- The names `q_1` and `theta` are plain. -/
example : Plain ['q', '_', '1'] ∧ Plain ['t', 'h', 'e', 't', 'a'] := by
  have r1 : ¬Reserved ['q', '_', '1'] := by
    rintro (⟨c, d, r, h, hc, -⟩ | ⟨t, ht⟩ | ⟨t, ht⟩)
    · simp only [List.cons.injEq] at h
      rcases hc with rfl | rfl <;> simp at h
    · have := congrArg List.getLast? ht
      simp at this
    · simp at ht
  have r2 : ¬Reserved ['t', 'h', 'e', 't', 'a'] := by
    rintro (⟨c, d, r, h, hc, -⟩ | ⟨t, ht⟩ | ⟨t, ht⟩)
    · simp only [List.cons.injEq] at h
      rcases hc with rfl | rfl <;> simp at h
    · have := congrArg List.getLast? ht
      simp at this
    · simp at ht
  refine ⟨⟨by simp, by simp, r1, long_not_short _ _, by simp [indexed]⟩, ⟨by simp, by simp, r2, ?_, by simp [indexed]⟩⟩
  rintro ⟨c, t, h, hc, -⟩
  simp only [List.cons.injEq] at h
  rw [← h.1] at hc
  simp at hc

/-- C53 fails for names in short notation given in a list: the expressions are renamed and the list is not, so the coordinate `q1` is reported as
a parameter `q_1`. -/
theorem C53_notation_refuted : ∃ s r, rename (.dyn ['q', '1'] 0) = .ok s ∧
    findArguments [[s]] (.list [['q', '1']]) .none true true = .ok r ∧ r.q = [['q', '1']] ∧ s ∉ r.q ∧ r.params = [s] := by
  have h1 : PyChars.numeric '1' = true := PyChars.sub _ (PyChars.ascii '1' (by decide))
  have hd : PyChars.digit '1' = true := PyChars.ascii '1' (by decide)
  have e : stdName ['q', '1'] = ['q', '_', '1'] := by
    obtain ⟨c, t, h2, h3⟩ := std_short (n := ['q', '1']) ⟨'q', ['1'], rfl, by simp, by simp, by simpa using h1⟩
    simp only [List.cons.injEq] at h2
    rw [h3, ← h2.1, ← h2.2]
  have hQ : isQ ['q', '1'] = .ok true := by simp [isQ, hd]
  have hE : expectedQ (.list [['q', '1']]) = .ok ([['q', '1']], [['v', '1']], [['a', '1']]) := by
    simp [expectedQ, diffToSymb, hQ, Except.map, derivName, bind, Except.bind, pure, Except.pure]
  have hU : expectedU 1 .none = .ok [['u', '_', '0']] := rfl
  refine ⟨['q', '_', '1'], report ⟨[['q', '1']], [['v', '1']], [['a', '1']], [['u', '_', '0']]⟩ .none true true
    ([['q', '_', '1']].foldl (look ⟨[['q', '1']], [['v', '1']], [['a', '1']], [['u', '_', '0']]⟩) {}), ?_, ?_, ?_⟩
  · change Except.ok (stdName ['q', '1']) = _
    rw [e]
  · unfold findArguments
    simp only [hE, List.map_cons, List.map_nil, List.length_cons, List.length_nil, List.sum_cons, List.sum_nil, Nat.zero_add, Nat.add_zero, hU]
    rfl
  · have hL : isLambda ['q', '_', '1'] = false := by simp [isLambda]
    simp [report, look, addNew, hL, sortNames]

/-- C53 fails for controls with large indices: the only control of an expression is reported as a parameter. -/
theorem C53_index_refuted : ∃ r, findArguments [[indexed 'u' 5]] (.int 1) .none true true = .ok r ∧ r.u = [] ∧
    r.params = [indexed 'u' 5] := by
  have hL : isLambda (indexed 'u' 5) = false := by
    rw [indexed, Nat.toDigits_of_lt_base (by decide)]
    simp [isLambda]
  have h1 : indexed 'u' 5 = ['u', '_', '5'] := by
    rw [indexed, Nat.toDigits_of_lt_base (by decide)]
    rfl
  refine ⟨_, rfl, ?_⟩
  rw [h1] at hL ⊢
  simp [report, look, addNew, hL, sortNames, reportU, Names.range, indexed]

/-- C53, for indices of one digit: the controls that are searched are reported in the order of their indices. -/
theorem C53_sorted_partial {sets : List (List Name)} {q : QVars} {sl sa : Bool} {r : Args}
    (h : findArguments sets q .none sl sa = .ok r) (hsmall : ∀ s ∈ sets, ∀ k, indexed 'u' k ∈ s → k < 10) :
    r.u.Pairwise fun x y => ∃ a b, x = indexed 'u' a ∧ y = indexed 'u' b ∧ a < b := by
  obtain ⟨e, -, hu, hr⟩ := find_eq h
  simp only [expectedU, Except.ok.injEq] at hu
  rw [report_eq] at hr
  have hru : r.u = sortNames (sortNames (run e sets.flatten .u)) := by rw [hr]; rfl
  have hnd : r.u.Nodup := by
    rw [hru]
    exact (sort_perm _).nodup_iff.2 ((sort_perm _).nodup_iff.2 (run_nodup _ _ _))
  have hle : r.u.Pairwise (· ≤ ·) := by
    rw [hru]
    exact List.pairwise_insertionSort _ _
  have hform : ∀ n ∈ r.u, ∃ k < 10, n = indexed 'u' k := by
    intro n hn
    rw [hru, mem_sort, mem_sort, mem_run] at hn
    have hm : n ∈ e.u := by
      have hkk := hn.2
      unfold kind at hkk
      split at hkk
      · split at hkk <;> cases hkk
      · split at hkk
        · rename_i h; exact h
        · split at hkk <;> cases hkk
    rw [← hu] at hm
    obtain ⟨k, -, rfl⟩ := mem_range.1 hm
    obtain ⟨s, hs, hns⟩ := List.mem_flatten.1 hn.1
    exact ⟨k, hsmall s hs k hns, rfl⟩
  have hdig : ∀ a < 10, ∀ b < 10, indexed 'u' a ≤ indexed 'u' b → a ≤ b := by decide
  refine (List.Pairwise.and_mem.1 (hle.and hnd)).imp fun {x y} hxy => ?_
  obtain ⟨hx, hy, hxy, hne⟩ := hxy
  obtain ⟨a, ha, rfl⟩ := hform x hx
  obtain ⟨b, hb, rfl⟩ := hform y hy
  refine ⟨a, b, rfl, rfl, lt_of_le_of_ne (hdig a ha b hb hxy) ?_⟩
  rintro rfl
  exact hne rfl

/-- C53 fails for indices of several digits: `u_10` comes before `u_2`. -/
theorem C53_sorted_refuted : ∃ r, findArguments [(List.range 12).map (indexed 'u')] (.int 1) .none true true = .ok r ∧
    r.u[2]? = some (indexed 'u' 10) ∧ r.u[4]? = some (indexed 'u' 2) := by
  have hp : ∀ {r}, findArguments [(List.range 12).map (indexed 'u')] (.int 1) .none true true = .ok r →
      r.u = [0, 1, 10, 11, 2, 3, 4, 5, 6, 7, 8, 9].map (indexed 'u') := by
    intro r h
    obtain ⟨e, -, hu, hr⟩ := find_eq h
    simp only [expectedU, Except.ok.injEq] at hu
    rw [report_eq] at hr
    have hru : r.u = sortNames (sortNames (run e [(List.range 12).map (indexed 'u')].flatten .u)) := by rw [hr]; rfl
    have hperm : (run e [(List.range 12).map (indexed 'u')].flatten .u).Perm ([0, 1, 10, 11, 2, 3, 4, 5, 6, 7, 8, 9].map (indexed 'u')) := by
      rw [List.perm_ext_iff_of_nodup (run_nodup _ _ _) (List.Nodup.map_on (fun _ _ _ _ h => (indexed_inj h).2) (by decide))]
      intro n
      rw [mem_run]
      have hlen : [(List.range 12).map (indexed 'u')].flatten.length = 12 := by simp
      rw [hlen] at hu
      have hmem : n ∈ [(List.range 12).map (indexed 'u')].flatten ↔ n ∈ e.u := by
        rw [← hu]
        simp [Names.range]
      have hset : n ∈ e.u ↔ n ∈ [0, 1, 10, 11, 2, 3, 4, 5, 6, 7, 8, 9].map (indexed 'u') := by
        rw [← hu]
        simp only [Names.range, List.mem_map]
        have hk : ∀ k, k ∈ List.range 12 ↔ k ∈ [0, 1, 10, 11, 2, 3, 4, 5, 6, 7, 8, 9] := by
          intro k
          simp only [List.mem_range, List.mem_cons, List.not_mem_nil, or_false]
          omega
        simp only [hk]
      rw [hmem, ← hset]
      refine ⟨fun h => h.1, fun h => ⟨h, ?_⟩⟩
      unfold kind
      rw [if_neg, if_pos h]
      simp [h]
    rw [hru, sort_eq ((sort_perm _).trans hperm)]
    have hsorted : ([0, 1, 10, 11, 2, 3, 4, 5, 6, 7, 8, 9].map (indexed 'u')).Pairwise (· ≤ ·) := by decide
    exact hsorted.insertionSort_eq
  have hf : ∃ r, findArguments [(List.range 12).map (indexed 'u')] (.int 1) .none true true = .ok r := by
    unfold findArguments
    simp only [expectedQ, expectedU]
    exact ⟨_, rfl⟩
  obtain ⟨r, hr⟩ := hf
  refine ⟨r, hr, ?_⟩
  rw [hp hr]
  simp

/-! ## C96: states -/

private theorem fold_hit {α β : Type} (f : α → β → α) (l₁ l₂ : List β) (p : β) {a b : α} (h1 : ∀ x ∈ l₁, f a x = a) (hp : f a p = b)
    (h2 : ∀ x ∈ l₂, f b x = b) : (l₁ ++ p :: l₂).foldl f a = b := by
  have fix : ∀ (l : List β) (c : α), (∀ x ∈ l, f c x = c) → l.foldl f c = c := by
    intro l c h
    induction l with
    | nil => rfl
    | cons y l ih => rw [List.foldl_cons, h y (by simp), ih fun x hx => h x (by simp [hx])]
  rw [List.foldl_append, fix l₁ a h1, List.foldl_cons, hp, fix l₂ b h2]

private theorem keep {old new q : Quantity} (n : Name) (k l : ℕ) (hq : q = .dyn n k) (ho : ∃ m, old = .dyn m l) (h : (∃ m, old = .dyn m l ∧ m ≠ n) ∨ k < l) :
    subsAtomDyn old new q = q := by
  obtain ⟨m, rfl⟩ := ho
  subst hq
  have hne : Quantity.dyn n k ≠ .dyn m l := by
    intro e
    injection e with e1 e2
    rcases h with ⟨m', e3, hm⟩ | h
    · injection e3 with e4
      exact hm (e4.symm.trans e1.symm)
    · omega
  have hc : ¬(n = m ∧ l < k) := by
    rintro ⟨e1, e2⟩
    rcases h with ⟨m', e3, hm⟩ | h
    · injection e3 with e4
      exact hm (e4.symm.trans e1.symm)
    · omega
  cases new with
  | sym s => simp only [subsAtomDyn, if_neg hne]
  | dyn s j => simp only [subsAtomDyn, if_neg hne, if_neg hc]

/-- C96, for coordinates that are not called as the states: a coordinate becomes the state with its index, and the derivatives of order `k + 1` become the
derivatives of order `k` of the state with the index of the velocity. -/
theorem C96_partial {l : List Name} (hnd : l.Nodup) (hx : ∀ n ∈ l, ∀ k, n ≠ indexed 'x' k) {i : ℕ} {n : Name} (hi : l[i]? = some n) :
    q2x (l.map fun n => .dyn n 0) (l.map fun n => .dyn n 1) (.dyn n 0) = .dyn (indexed 'x' i) 0 ∧
    ∀ k, q2x (l.map fun n => .dyn n 0) (l.map fun n => .dyn n 1) (.dyn n (k + 1)) = .dyn (indexed 'x' (l.length + i)) k := by
  obtain ⟨l₁, l₂, rfl, hlen⟩ : ∃ l₁ l₂, l = l₁ ++ n :: l₂ ∧ l₁.length = i := by
    have hlt : i < l.length := (List.getElem?_eq_some_iff.1 hi).1
    refine ⟨l.take i, l.drop (i + 1), ?_, by simp [hlt.le]⟩
    have : l[i] = n := (List.getElem?_eq_some_iff.1 hi).2
    rw [← this, List.getElem_cons_drop]
    simp
  subst hlen
  have hne1 : ∀ m ∈ l₁, m ≠ n := by
    intro m hm e
    have := (List.nodup_append.1 hnd).2.2 m hm n (by simp)
    exact this e
  have hxn : ∀ m ∈ l₁ ++ n :: l₂, ∀ k, m ≠ indexed 'x' k := hx
  constructor
  · unfold q2x
    simp only [List.map_append, List.map_cons, List.mapIdx_append, List.mapIdx_cons, List.length_map]
    rw [← List.append_assoc]
    refine fold_hit (fun q (p : Quantity × Quantity) => subsAtomDyn p.1 p.2 q) _ _ _ ?_ ?_ ?_
    · intro x hmem
      rcases List.mem_append.1 hmem with hmem | hmem
      · have : ∃ m, x.1 = .dyn m 1 := by
          rcases List.mem_append.1 hmem with h | h
          · rw [List.mem_mapIdx] at h
            obtain ⟨j, hj, rfl⟩ := h
            exact ⟨l₁[j]'(by simpa using hj), by simp⟩
          · rcases List.mem_cons.1 h with rfl | h
            · exact ⟨n, rfl⟩
            · rw [List.mem_mapIdx] at h
              obtain ⟨j, hj, rfl⟩ := h
              exact ⟨l₂[j]'(by simpa using hj), by simp⟩
        exact keep n 0 1 rfl this (.inr (by omega))
      · rw [List.mem_mapIdx] at hmem
        obtain ⟨j, hj, rfl⟩ := hmem
        have hj' : j < l₁.length := by simpa using hj
        exact keep n 0 0 rfl ⟨l₁[j], by simp⟩ (.inl ⟨l₁[j], by simp, hne1 _ (List.getElem_mem hj')⟩)
    · simp [subsAtomDyn, indexed]
    · intro x hmem
      rw [List.mem_mapIdx] at hmem
      obtain ⟨j, hj, rfl⟩ := hmem
      have hj' : j < l₂.length := by simpa using hj
      exact keep (indexed 'x' l₁.length) 0 0 rfl ⟨l₂[j], by simp⟩
        (.inl ⟨l₂[j], by simp, hxn _ (by simp [List.getElem_mem hj']) _⟩)
  · intro k
    unfold q2x
    simp only [List.map_append, List.map_cons, List.mapIdx_append, List.mapIdx_cons, List.length_map, List.length_append, List.length_cons]
    rw [List.append_assoc, List.cons_append]
    refine fold_hit (fun q (p : Quantity × Quantity) => subsAtomDyn p.1 p.2 q) _ _ _ ?_ ?_ ?_
    · intro x hmem
      rw [List.mem_mapIdx] at hmem
      obtain ⟨j, hj, rfl⟩ := hmem
      have hj' : j < l₁.length := by simpa using hj
      exact keep n (k + 1) 1 rfl ⟨l₁[j], by simp⟩ (.inl ⟨l₁[j], by simp, hne1 _ (List.getElem_mem hj')⟩)
    · cases k with
      | zero => simp [subsAtomDyn, indexed]
      | succ k => simp [subsAtomDyn, indexed]
    · intro x hmem
      obtain ⟨m, j, hm, e⟩ : ∃ m j, m ∈ l₁ ++ n :: l₂ ∧ x.1 = .dyn m j := by
        rcases List.mem_append.1 hmem with h | h
        · rw [List.mem_mapIdx] at h
          obtain ⟨j, hj, rfl⟩ := h
          have hj' : j < l₂.length := by simpa using hj
          exact ⟨l₂[j], 1, by simp [List.getElem_mem hj'], by simp⟩
        · rcases List.mem_append.1 h with h | h
          · rw [List.mem_mapIdx] at h
            obtain ⟨j, hj, rfl⟩ := h
            have hj' : j < l₁.length := by simpa using hj
            exact ⟨l₁[j], 0, by simp [List.getElem_mem hj'], by simp⟩
          · rcases List.mem_cons.1 h with rfl | h
            · exact ⟨n, 0, by simp, rfl⟩
            · rw [List.mem_mapIdx] at h
              obtain ⟨j, hj, rfl⟩ := h
              have hj' : j < l₂.length := by simpa using hj
              exact ⟨l₂[j], 0, by simp [List.getElem_mem hj'], by simp⟩
      exact keep (indexed 'x' (l₁.length + (l₂.length + 1) + l₁.length)) k j rfl ⟨m, e⟩ (.inl ⟨m, e, hxn m hm _⟩)

/-- The theorems on `find_arguments` on a case: two expressions with `q_0`, `u_0`, `lam1` and `m`. -/
example : ∃ r, findArguments [[indexed 'q' 0, indexed 'u' 0], [['l', 'a', 'm', '1'], ['m']]] (.int 1) .none true true = .ok r ∧ indexed 'u' 0 ∈ r.u ∧
    ['l', 'a', 'm', '1'] ∈ r.lam ∧ ['m'] ∈ r.q ++ r.v ++ r.a ++ r.u ++ r.params ++ r.lam ∧ (r.q ++ r.v ++ r.a ++ r.u ++ r.params ++ r.lam).Nodup ∧
    rename (.dyn (indexed 'q' 0) 0) = .ok (r.q.getD 0 []) ∧ (r.u.Pairwise fun x y => ∃ a b, x = indexed 'u' a ∧ y = indexed 'u' b ∧ a < b) ∧
    findArguments [[['m'], ['l', 'a', 'm', '1']], [indexed 'q' 0, indexed 'u' 0]] (.int 1) .none true true = .ok r := by
  obtain ⟨r, h⟩ : ∃ r, findArguments [[indexed 'q' 0, indexed 'u' 0], [['l', 'a', 'm', '1'], ['m']]] (.int 1) .none true true = .ok r := ⟨_, rfl⟩
  refine ⟨r, h, (C53_groups h _).1.2 ⟨⟨_, List.mem_cons_self, by simp⟩, 0, by simp, rfl⟩,
    C53_lambda (.inl rfl) h (ds := ['1']) (by simp) (by decide) (s := [['l', 'a', 'm', '1'], ['m']]) (by simp) (by simp),
    C53_cover h (s := [['l', 'a', 'm', '1'], ['m']]) (by simp) (by simp), C53_disjoint (.inl rfl) h, (C53_places h one_pos).1, C53_sorted_partial h ?_, ?_⟩
  · intro s hs k hk
    have h0 : indexed 'u' k ∈ [indexed 'q' 0, indexed 'u' 0, ['l', 'a', 'm', '1'], ['m']] := by
      simp only [List.mem_cons, List.not_mem_nil, or_false] at hs ⊢
      rcases hs with rfl | rfl <;> simp only [List.mem_cons, List.not_mem_nil, or_false] at hk <;> rcases hk with hk | hk <;> simp [hk]
    simp only [List.mem_cons, List.not_mem_nil, or_false] at h0
    rcases h0 with h0 | h0 | h0 | h0
    · simp [indexed] at h0
    · rw [(indexed_inj h0).2]; norm_num
    · simp [indexed] at h0
    · simp [indexed] at h0
  · rw [← h]
    exact C53_order (by simp; decide) _ _ _ _

/-- C96 fails for coordinates called as the states in another order: two coordinates become the same state. -/
theorem C96_refuted :
    q2x [.dyn (indexed 'x' 1) 0, .dyn (indexed 'x' 0) 0] [.dyn (indexed 'x' 1) 1, .dyn (indexed 'x' 0) 1] (.dyn (indexed 'x' 1) 0) =
      q2x [.dyn (indexed 'x' 1) 0, .dyn (indexed 'x' 0) 0] [.dyn (indexed 'x' 1) 1, .dyn (indexed 'x' 0) 1] (.dyn (indexed 'x' 0) 0) := by
  decide

/-- The hypotheses of `C96_partial` hold of `q_0` and `theta`. -/
example : [indexed 'q' 0, ['t', 'h', 'e', 't', 'a']].Nodup ∧ ∀ n ∈ [indexed 'q' 0, ['t', 'h', 'e', 't', 'a']], ∀ k, n ≠ indexed 'x' k := by
  simp [indexed]

end Chords.Props
