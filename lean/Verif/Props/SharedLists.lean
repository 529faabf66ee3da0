import Verif.Model.SharedLists
import Verif.Props.Points
import Mathlib.Tactic.Linarith
import Mathlib.Tactic.NormNum
import Mathlib.Tactic.FieldSimp
import Mathlib.Tactic.Ring
import Mathlib.Tactic.SplitIfs

/-! # What users do with the lists of points: C180 -/

namespace Chords.Props
open SharedLists Points Spec

/-- What a call should return. -/
noncomputable def wanted : Key → Except Err (List ℝ)
  | .base b => .ok b.value
  | .lglm N => .ok (LGLm N)
  | .coll N scheme order => collPoints N scheme order
  | .node N scheme => nodePoints N scheme
  | .bu N scheme order => buCollPoints N scheme order
  | .buConstr N scheme order => buConstructionPoints N scheme order
  | .tdConstr N scheme order => tdConstructionPoints N scheme order

/-- What `v_coef` and `v_coef_coll` should return. -/
noncomputable def wantedV : VKey → Except Err ℝ
  | .node N i scheme order => Bary.vCoef N i scheme order
  | .coll N i scheme order => Bary.vCoefColl N i scheme order

/-- The call that makes the list which `coll_points` returns. -/
def collRoot (N : ℕ) (scheme : String) (order : ℕ) : Key :=
  if scheme ∈ ["LG", "LG_inv", "LG2"] then .base (.LG N)
  else if scheme = "LGR" then .base (.LGR N)
  else if scheme ∈ ["LGL", "D2"] then .base (.LGL N)
  else if scheme = "LGLm" then .lglm N
  else if scheme ∈ ["JG", "JG_inv", "JG2"] then .base (.JG N order)
  else if scheme = "JGR" then .base (.JGR N order)
  else if scheme = "JGR_inv" then .base (.JGRinv N order)
  else if scheme = "JGL" then .base (.JGL N order)
  else .coll N scheme order

/-- The same for `BU_coll_points`. -/
def buRoot (N : ℕ) (scheme : String) (order : ℕ) : Key :=
  if scheme = "LG" then .base (.LG N)
  else if scheme = "LGR" then .base (.LGR N)
  else if scheme = "LGL" then .base (.LGL N)
  else if scheme = "JG" then .base (.JG N order)
  else if scheme = "JGR" then .base (.JGR N order)
  else if scheme = "JGR_inv" then .base (.JGRinv N order)
  else if scheme = "JGL" then .base (.JGL N order)
  else .bu N scheme order

/-- The call that makes the list which a call returns: calls with the same one share their list. -/
def root : Key → Key
  | .base b => .base b
  | .lglm N => .lglm N
  | .coll N scheme order => collRoot N scheme order
  | .node N scheme => if scheme ∈ lobatoLike then collRoot N scheme 2 else if scheme = "D2" then .base (.LGL N) else .node N scheme
  | .bu N scheme order => buRoot N scheme order
  | .buConstr N scheme order => if scheme ∈ radauInv then buRoot N scheme order else .buConstr N scheme order
  | .tdConstr N scheme order => if scheme ∈ lobatoLike then buRoot N scheme order else .tdConstr N scheme order

/-- The lists that `coll_points` reads to make its own. -/
def collReads (N : ℕ) (scheme : String) : List Key :=
  if scheme = "LGR_inv" then [.base (.LGR N)] else if scheme = "LGLm" then [.base (.LGL (N + 2))] else []

def buReads (N : ℕ) (scheme : String) : List Key := if scheme = "LGR_inv" then [.base (.LGR N)] else []

/-- The lists that a call returns or reads, named by the calls that make them. -/
def reads : Key → List Key
  | .base b => [.base b]
  | .lglm N => [.lglm N, .base (.LGL (N + 2))]
  | .coll N scheme order => collRoot N scheme order :: collReads N scheme
  | .node N scheme => root (.node N scheme) :: (if scheme ∈ lobatoLike then collRoot N scheme 2 :: collReads N scheme
      else if scheme ∈ gauss2 then collRoot (N - 2) scheme 2 :: collReads (N - 2) scheme
      else if scheme = "D2" then [] else collRoot (N - 1) scheme 2 :: collReads (N - 1) scheme)
  | .bu N scheme order => buRoot N scheme order :: buReads N scheme
  | .buConstr N scheme order => root (.buConstr N scheme order) :: buRoot N scheme order :: buReads N scheme
  | .tdConstr N scheme order => root (.tdConstr N scheme order) :: buRoot N scheme order :: buReads N scheme

/-- The lists that `v_coef` and `v_coef_coll` read. -/
def readsV : VKey → List Key
  | .node N _ scheme _ => reads (.node N scheme)
  | .coll N _ scheme order => reads (.coll N scheme order)

theorem collRoot_fixed (N : ℕ) (scheme : String) (order : ℕ) : root (collRoot N scheme order) = collRoot N scheme order := by
  by_cases h : collRoot N scheme order = .coll N scheme order
  · rw [h]; exact h
  · revert h
    rw [collRoot]
    split_ifs <;> simp [root]

theorem buRoot_fixed (N : ℕ) (scheme : String) (order : ℕ) : root (buRoot N scheme order) = buRoot N scheme order := by
  by_cases h : buRoot N scheme order = .bu N scheme order
  · rw [h]; exact h
  · revert h
    rw [buRoot]
    split_ifs <;> simp [root]

theorem root_root (k : Key) : root (root k) = root k := by
  cases k with
  | base b => rfl
  | lglm N => rfl
  | coll N s o => exact collRoot_fixed N s o
  | node N s =>
    by_cases h1 : s ∈ lobatoLike
    · rw [show root (.node N s) = collRoot N s 2 by rw [root, if_pos h1]]
      exact collRoot_fixed N s 2
    · by_cases h2 : s = "D2"
      · rw [show root (.node N s) = .base (.LGL N) by rw [root, if_neg h1, if_pos h2]]
        rfl
      · rw [show root (.node N s) = .node N s by rw [root, if_neg h1, if_neg h2]]
        rw [root, if_neg h1, if_neg h2]
  | bu N s o => exact buRoot_fixed N s o
  | buConstr N s o =>
    by_cases h1 : s ∈ radauInv
    · rw [show root (.buConstr N s o) = buRoot N s o by rw [root, if_pos h1]]
      exact buRoot_fixed N s o
    · rw [show root (.buConstr N s o) = .buConstr N s o by rw [root, if_neg h1]]
      rw [root, if_neg h1]
  | tdConstr N s o =>
    by_cases h1 : s ∈ lobatoLike
    · rw [show root (.tdConstr N s o) = buRoot N s o by rw [root, if_pos h1]]
      exact buRoot_fixed N s o
    · rw [show root (.tdConstr N s o) = .tdConstr N s o by rw [root, if_neg h1]]
      rw [root, if_neg h1]

theorem root_mem (k : Key) : root k ∈ reads k := by
  cases k <;> simp [reads, root]

/-- No list that the call returns or reads was changed. -/
def Clean (D : Key → Prop) (k : Key) : Prop := ∀ d ∈ reads k, ¬D d

/-- The lists, named by the calls that made them, are right where they were not changed, and so are the files. -/
structure Inv (D : Key → Prop) (own : ℕ → Key) (s : St) : Prop where
  fixed : ∀ a < s.next, root (own a) = own a
  heap : ∀ a < s.next, Clean D (own a) → wanted (own a) = .ok (s.heap a)
  lru : ∀ sp k a, s.lru sp k = some a → a < s.next ∧ own a = root k ∧ ∃ l, wanted k = .ok l
  disk : ∀ k v, s.disk k = some v → (∃ l, wanted k = .ok l) ∧ (Clean D k → wanted k = .ok v)
  lruV : ∀ sp k v, s.lruV sp k = some v → (∃ l, wantedV k = .ok l) ∧ ((∀ d ∈ readsV k, ¬D d) → wantedV k = .ok v)
  diskV : ∀ k v, s.diskV k = some v → (∃ l, wantedV k = .ok l) ∧ ((∀ d ∈ readsV k, ¬D d) → wantedV k = .ok v)

/-- A program that returns the list of a call. -/
def Sound (D : Key → Prop) (k : Key) (p : Prog ℕ) : Prop := ∀ s own, Inv D own s → ∃ own', (∀ a < s.next, own' a = own a) ∧ s.next ≤ (p s).2.next ∧
  Inv D own' (p s).2 ∧ match (p s).1 with
    | .ok a => a < (p s).2.next ∧ own' a = root k ∧ ∃ l, wanted k = .ok l
    | .error e => wanted k = .error e

theorem sound_fail {D : Key → Prop} {k : Key} {e : Err} (h : wanted k = .error e) : Sound D k (fail e) :=
  fun s own hi => ⟨own, fun _ _ => rfl, le_rfl, hi, h⟩

/-- Allocation of a list that is right if what it was made from is. -/
theorem inv_alloc {D : Key → Prop} {own : ℕ → Key} {s : St} (hi : Inv D own s) {k : Key} (hr : root k = k) {v : List ℝ} (hv : Clean D k → wanted k = .ok v) :
    Inv D (Function.update own s.next k) (fresh v s).2 := by
  have hne : ∀ a < s.next, Function.update own s.next k a = own a := fun a ha => Function.update_of_ne (by omega) _ _
  refine ⟨fun a ha => ?_, fun a ha hc => ?_, fun sp j a hj => ?_, hi.disk, hi.lruV, hi.diskV⟩
  · by_cases h : a = s.next
    · subst h; simpa using hr
    · have : a < s.next := by simp only [fresh] at ha; omega
      rw [hne a this]; exact hi.fixed a this
  · by_cases h : a = s.next
    · subst h
      simp only [Function.update_self] at hc ⊢
      simpa [fresh] using hv hc
    · have h' : a < s.next := by simp only [fresh] at ha; omega
      rw [hne a h'] at hc ⊢
      simp only [fresh]
      rw [Function.update_of_ne h]
      exact hi.heap a h' hc
  · obtain ⟨h1, h2, h3⟩ := hi.lru sp j a hj
    exact ⟨by simp only [fresh]; omega, by rw [hne a h1]; exact h2, h3⟩

theorem sound_fresh {D : Key → Prop} {k : Key} (hr : root k = k) {v : List ℝ} (h : wanted k = .ok v) : Sound D k (fresh v) := fun s own hi =>
  ⟨Function.update own s.next k, fun a ha => Function.update_of_ne (by omega) _ _, by simp [fresh], inv_alloc hi hr fun _ => h,
    by simp [fresh], by simp [hr], v, h⟩

theorem sound_alias {D : Key → Prop} {j k : Key} {p : Prog ℕ} (h : Sound D j p) (hr : root j = root k) (hw : wanted k = wanted j) : Sound D k p := fun s own hi => by
  obtain ⟨own', h1, h2, h3, h4⟩ := h s own hi
  refine ⟨own', h1, h2, h3, ?_⟩
  rw [hw, ← hr]
  exact h4

theorem clean_root_mono {D : Key → Prop} {k : Key} (hsub : ∀ d ∈ reads (root k), d ∈ reads k) (h : Clean D k) : Clean D (root k) := fun d hd => h d (hsub d hd)

/-- The calls whose lists a call returns read no more than the call. -/
theorem reads_root (k : Key) : ∀ d ∈ reads (root k), d ∈ reads k := by
  have hc : ∀ N s o, ∀ d ∈ reads (collRoot N s o), d ∈ collRoot N s o :: collReads N s := by
    intro N s o d hd
    by_cases h : collRoot N s o = .coll N s o
    · rw [h] at hd
      exact hd
    · by_cases h2 : s = "LGLm"
      · subst h2
        simpa [collRoot, collReads, reads] using hd
      · revert hd h
        rw [collRoot]
        split_ifs <;> simp +contextual [reads]
  have hb : ∀ N s o, ∀ d ∈ reads (buRoot N s o), d ∈ buRoot N s o :: buReads N s := by
    intro N s o d hd
    by_cases h : buRoot N s o = .bu N s o
    · rw [h] at hd
      exact hd
    · revert hd h
      rw [buRoot]
      split_ifs <;> simp +contextual [reads]
  cases k with
  | base b => exact fun d hd => hd
  | lglm N => exact fun d hd => hd
  | coll N s o => exact hc N s o
  | node N s =>
    by_cases h1 : s ∈ lobatoLike
    · have e : root (.node N s) = collRoot N s 2 := by rw [root, if_pos h1]
      rw [e]
      intro d hd
      rw [reads, if_pos h1]
      exact List.mem_cons_of_mem _ (hc N s 2 d hd)
    · by_cases h2 : s = "D2"
      · have e : root (.node N s) = .base (.LGL N) := by rw [root, if_neg h1, if_pos h2]
        rw [e]
        intro d hd
        rw [reads, e]
        rw [reads, List.mem_singleton] at hd
        rw [hd]
        exact List.mem_cons_self
      · have e : root (.node N s) = .node N s := by rw [root, if_neg h1, if_neg h2]
        rw [e]
        exact fun d hd => hd
  | bu N s o => exact hb N s o
  | buConstr N s o =>
    by_cases h1 : s ∈ radauInv
    · have e : root (.buConstr N s o) = buRoot N s o := by rw [root, if_pos h1]
      rw [e]
      intro d hd
      exact List.mem_cons_of_mem _ (hb N s o d hd)
    · have e : root (.buConstr N s o) = .buConstr N s o := by rw [root, if_neg h1]
      rw [e]
      exact fun d hd => hd
  | tdConstr N s o =>
    by_cases h1 : s ∈ lobatoLike
    · have e : root (.tdConstr N s o) = buRoot N s o := by rw [root, if_pos h1]
      rw [e]
      intro d hd
      exact List.mem_cons_of_mem _ (hb N s o d hd)
    · have e : root (.tdConstr N s o) = .tdConstr N s o := by rw [root, if_neg h1]
      rw [e]
      exact fun d hd => hd

/-! What a call should return is what the call that makes its list should. -/

theorem wanted_collRoot (N : ℕ) (s : String) (o : ℕ) : wanted (collRoot N s o) = collPoints N s o := by
  by_cases h : collRoot N s o = .coll N s o
  · rw [h]; rfl
  · revert h
    rw [collRoot, collPoints]
    by_cases h3 : s = "LGR_inv"
    · rw [if_neg (by rw [h3]; decide), if_neg (by rw [h3]; decide), if_neg (by rw [h3]; decide), if_neg (by rw [h3]; decide), if_neg (by rw [h3]; decide),
        if_neg (by rw [h3]; decide), if_neg (by rw [h3]; decide), if_neg (by rw [h3]; decide)]
      exact fun h => absurd rfl h
    · by_cases a : s ∈ ["LG", "LG_inv", "LG2"]
      · rw [if_pos a, if_pos a]
        exact fun _ => rfl
      rw [if_neg a, if_neg a]
      clear a
      by_cases a : s = "LGR"
      · rw [if_pos a, if_pos a]
        exact fun _ => rfl
      rw [if_neg a, if_neg a]
      clear a
      rw [if_neg h3]
      by_cases a : s ∈ ["LGL", "D2"]
      · rw [if_pos a, if_pos a]
        exact fun _ => rfl
      rw [if_neg a, if_neg a]
      clear a
      by_cases a : s = "LGLm"
      · rw [if_pos a, if_pos a]
        exact fun _ => rfl
      rw [if_neg a, if_neg a]
      clear a
      by_cases a : s ∈ ["JG", "JG_inv", "JG2"]
      · rw [if_pos a, if_pos a]
        exact fun _ => rfl
      rw [if_neg a, if_neg a]
      clear a
      by_cases a : s = "JGR"
      · rw [if_pos a, if_pos a]
        exact fun _ => rfl
      rw [if_neg a, if_neg a]
      clear a
      by_cases a : s = "JGR_inv"
      · rw [if_pos a, if_pos a]
        exact fun _ => rfl
      rw [if_neg a, if_neg a]
      clear a
      by_cases a : s = "JGL"
      · rw [if_pos a, if_pos a]
        exact fun _ => rfl
      rw [if_neg a, if_neg a]
      clear a
      exact fun h => absurd rfl h

theorem wanted_buRoot (N : ℕ) (s : String) (o : ℕ) : wanted (buRoot N s o) = buCollPoints N s o := by
  by_cases h : buRoot N s o = .bu N s o
  · rw [h]; rfl
  · revert h
    rw [buRoot, buCollPoints]
    simp only [List.mem_singleton]
    by_cases h3 : s = "LGR_inv"
    · rw [if_neg (by rw [h3]; decide), if_neg (by rw [h3]; decide), if_neg (by rw [h3]; decide), if_neg (by rw [h3]; decide), if_neg (by rw [h3]; decide),
        if_neg (by rw [h3]; decide), if_neg (by rw [h3]; decide)]
      exact fun h => absurd rfl h
    · by_cases a : s = "LG"
      · rw [if_pos a, if_pos a]
        exact fun _ => rfl
      rw [if_neg a, if_neg a]
      clear a
      by_cases a : s = "LGR"
      · rw [if_pos a, if_pos a]
        exact fun _ => rfl
      rw [if_neg a, if_neg a]
      clear a
      rw [if_neg h3]
      by_cases a : s = "LGL"
      · rw [if_pos a, if_pos a]
        exact fun _ => rfl
      rw [if_neg a, if_neg a]
      clear a
      by_cases a : s = "JG"
      · rw [if_pos a, if_pos a]
        exact fun _ => rfl
      rw [if_neg a, if_neg a]
      clear a
      by_cases a : s = "JGR"
      · rw [if_pos a, if_pos a]
        exact fun _ => rfl
      rw [if_neg a, if_neg a]
      clear a
      by_cases a : s = "JGR_inv"
      · rw [if_pos a, if_pos a]
        exact fun _ => rfl
      rw [if_neg a, if_neg a]
      clear a
      by_cases a : s = "JGL"
      · rw [if_pos a, if_pos a]
        exact fun _ => rfl
      rw [if_neg a, if_neg a]
      clear a
      exact fun h => absurd rfl h

theorem radauInv_not {s : String} (h : s ∈ radauInv) : s ∉ gaussLike ∧ s ∉ radauLike ∧ s ∉ lobatoLike := by
  revert s; decide

theorem lobato_not {s : String} (h : s ∈ lobatoLike) : s ∉ gaussLike ++ radauInv ∧ s ∉ gaussInv ++ radauLike ∧ s ∉ gaussLike ∧ s ∉ radauLike ∧ s ∉ radauInv := by
  revert s; decide

theorem wanted_root (k : Key) : wanted (root k) = wanted k := by
  cases k with
  | base b => rfl
  | lglm N => rfl
  | coll N s o => exact wanted_collRoot N s o
  | node N s =>
    by_cases h1 : s ∈ lobatoLike
    · rw [root, if_pos h1, wanted_collRoot, wanted, nodePoints, if_neg (lobato_not h1).1, if_neg (lobato_not h1).2.1, if_pos h1]
    · by_cases h2 : s = "D2"
      · subst h2
        rw [root, if_neg h1, if_pos rfl, wanted, wanted, nodePoints, if_neg (by decide), if_neg (by decide), if_neg (by decide), if_neg (by decide),
          if_pos (by decide), if_pos (by decide)]
        rfl
      · rw [root, if_neg h1, if_neg h2]
  | bu N s o => exact wanted_buRoot N s o
  | buConstr N s o =>
    by_cases h1 : s ∈ radauInv
    · rw [root, if_pos h1, wanted_buRoot, wanted, buConstructionPoints]
      simp only [(radauInv_not h1).1, (radauInv_not h1).2.1, h1, if_true, if_false]
      cases buCollPoints N s o <;> rfl
    · rw [root, if_neg h1]
  | tdConstr N s o =>
    by_cases h1 : s ∈ lobatoLike
    · rw [root, if_pos h1, wanted_buRoot, wanted, tdConstructionPoints]
      simp only [(lobato_not h1).2.2.1, (lobato_not h1).2.2.2.1, (lobato_not h1).2.2.2.2, h1, if_true, if_false]
      cases buCollPoints N s o <;> rfl
    · rw [root, if_neg h1]

/-! ### The programs -/

theorem clean_root {D : Key → Prop} {k : Key} (h : Clean D k) : Clean D (root k) := fun d hd => h d (reads_root k d hd)

/-- The list of a call that was not changed is right. -/
theorem inv_right {D : Key → Prop} {own : ℕ → Key} {s : St} (hi : Inv D own s) {k : Key} {a : ℕ} (ha : a < s.next) (ho : own a = root k) (hc : Clean D k) :
    wanted k = .ok (s.heap a) := by
  rw [← wanted_root, ← ho]
  exact hi.heap a ha (ho ▸ clean_root hc)

theorem sound_cached {D : Key → Prop} {k : Key} {p : Prog ℕ} (sp : ℕ) (h : Sound D k p) : Sound D k (cached sp k p) := fun s own hi => by
  unfold cached
  cases e : s.lru sp k with
  | some a => exact ⟨own, fun _ _ => rfl, le_rfl, hi, hi.lru sp k a e⟩
  | none =>
    obtain ⟨own', h1, h2, h3, h4⟩ := h s own hi
    dsimp only [Prog.bind]
    generalize p s = r at h2 h3 h4
    obtain ⟨res, s'⟩ := r
    cases res with
    | error er => exact ⟨own', h1, h2, h3, h4⟩
    | ok a =>
      dsimp only at h2 h3 h4 ⊢
      refine ⟨own', h1, h2, ⟨h3.fixed, h3.heap, fun sp' j b hj => ?_, h3.disk, h3.lruV, h3.diskV⟩, h4⟩
      dsimp only at hj ⊢
      by_cases hs : sp' = sp
      · subst hs
        rw [Function.update_self] at hj
        by_cases hk : j = k
        · subst hk
          rw [Function.update_self] at hj
          cases hj
          exact h4
        · rw [Function.update_of_ne hk] at hj
          exact h3.lru _ _ _ hj
      · rw [Function.update_of_ne hs] at hj
        exact h3.lru _ _ _ hj

theorem sound_stored {D : Key → Prop} {k : Key} {p : Prog ℕ} (hr : root k = k) (h : Sound D k p) : Sound D k (stored k p) := fun s own hi => by
  unfold stored
  cases e : s.disk k with
  | some v =>
    dsimp only
    refine ⟨Function.update own s.next k, fun a ha => Function.update_of_ne (by omega) _ _, by simp [fresh], inv_alloc hi hr (hi.disk k v e).2, by simp [fresh], ?_,
      (hi.disk k v e).1⟩
    simp [hr]
  | none =>
    obtain ⟨own', h1, h2, h3, h4⟩ := h s own hi
    dsimp only [Prog.bind]
    generalize p s = r at h2 h3 h4
    obtain ⟨res, s'⟩ := r
    cases res with
    | error er => exact ⟨own', h1, h2, h3, h4⟩
    | ok a =>
      dsimp only at h2 h3 h4 ⊢
      refine ⟨own', h1, h2, ⟨h3.fixed, h3.heap, h3.lru, fun j v hj => ?_, h3.lruV, h3.diskV⟩, h4⟩
      dsimp only at hj
      by_cases hk : j = k
      · subst hk
        rw [Function.update_self] at hj
        cases hj
        exact ⟨h4.2.2, fun hc => inv_right h3 h4.1 h4.2.1 hc⟩
      · rw [Function.update_of_ne hk] at hj
        exact h3.disk _ _ hj

theorem sound_derive {D : Key → Prop} {j k : Key} {p : Prog ℕ} {g : List ℝ → List ℝ} (h : Sound D j p) (hr : root k = k) (hw : wanted k = (wanted j).map g)
    (hsub : ∀ d ∈ reads j, d ∈ reads k) : Sound D k (derive p g) := fun s own hi => by
  obtain ⟨own', h1, h2, h3, h4⟩ := h s own hi
  unfold derive Prog.bind
  generalize p s = r at h2 h3 h4
  obtain ⟨res, s'⟩ := r
  cases res with
  | error er =>
    dsimp only at h4 ⊢
    exact ⟨own', h1, h2, h3, by rw [hw, h4]; rfl⟩
  | ok a =>
    dsimp only at h2 h3 h4 ⊢
    obtain ⟨h5, h6, l, h7⟩ := h4
    refine ⟨Function.update own' s'.next k, fun b hb => ?_, by simp only [fresh]; omega, inv_alloc h3 hr fun hc => ?_, by simp [fresh], by simp [hr],
      g l, by rw [hw, h7]; rfl⟩
    · rw [Function.update_of_ne (by omega), h1 b hb]
    · rw [hw, inv_right h3 h5 h6 fun d hd => hc d (hsub d hd)]
      rfl

theorem sound_then_fail {D : Key → Prop} {j k : Key} {p : Prog ℕ} {e : Err} (h : Sound D j p) (hw : wanted k = (wanted j).bind fun _ => .error e) :
    Sound D k (p.bind fun _ => fail e) := fun s own hi => by
  obtain ⟨own', h1, h2, h3, h4⟩ := h s own hi
  unfold Prog.bind
  generalize p s = r at h2 h3 h4
  obtain ⟨res, s'⟩ := r
  cases res with
  | error er =>
    dsimp only at h4 ⊢
    exact ⟨own', h1, h2, h3, by rw [hw, h4]; rfl⟩
  | ok a =>
    dsimp only [fail] at h2 h3 h4 ⊢
    obtain ⟨h5, h6, l, h7⟩ := h4
    exact ⟨own', h1, h2, h3, by rw [hw, h7]; rfl⟩

theorem sound_base (D : Key → Prop) (sp : ℕ) (b : Base) : Sound D (.base b) (base sp b) := sound_cached sp (sound_stored rfl (sound_fresh rfl rfl))

theorem sound_lglm (D : Key → Prop) (sp N : ℕ) : Sound D (.lglm N) (lglm sp N) :=
  sound_cached sp (sound_stored rfl (sound_derive (sound_base D 0 _) rfl rfl (by simp [reads])))

/-- `Sound` with the call that makes the list and what it should hold as separate arguments. -/
def SoundAt (D : Key → Prop) (r : Key) (w : Except Err (List ℝ)) (p : Prog ℕ) : Prop := ∀ s own, Inv D own s → ∃ own', (∀ a < s.next, own' a = own a) ∧
  s.next ≤ (p s).2.next ∧ Inv D own' (p s).2 ∧ match (p s).1 with
    | .ok a => a < (p s).2.next ∧ own' a = r ∧ ∃ l, w = .ok l
    | .error e => w = .error e

theorem soundAt_base (D : Key → Prop) (b : Base) : SoundAt D (.base b) (.ok b.value) (base 0 b) := sound_base D 0 b

theorem sound_coll (D : Key → Prop) (sp N : ℕ) (s : String) (o : ℕ) : Sound D (.coll N s o) (coll sp N s o) := by
  refine sound_cached sp ?_
  by_cases h3 : s = "LGR_inv"
  · subst h3
    exact sound_derive (sound_base D 0 (.LGR N)) rfl rfl (by simp [reads, collReads])
  by_cases h_CG : s = "CG"
  · subst h_CG
    exact sound_fresh (v := CG N) rfl rfl
  by_cases h_CG_inv : s = "CG_inv"
  · subst h_CG_inv
    exact sound_fresh (v := CG N) rfl rfl
  by_cases h_CG2 : s = "CG2"
  · subst h_CG2
    exact sound_fresh (v := CG N) rfl rfl
  by_cases h_CGR : s = "CGR"
  · subst h_CGR
    exact sound_fresh (v := CGR N) rfl rfl
  by_cases h_CGR_inv : s = "CGR_inv"
  · subst h_CGR_inv
    exact sound_fresh (v := negRev (CGR N)) rfl rfl
  by_cases h_CGL : s = "CGL"
  · subst h_CGL
    exact sound_fresh (v := CGL N) rfl rfl
  show SoundAt D (collRoot N s o) (collPoints N s o) _
  rw [collRoot, collPoints]
  by_cases a : s ∈ ["LG", "LG_inv", "LG2"]
  · rw [if_pos a, if_pos a, if_pos a]
    exact soundAt_base D _
  rw [if_neg a, if_neg a, if_neg a]
  clear a
  by_cases a : s = "LGR"
  · rw [if_pos a, if_pos a, if_pos a]
    exact soundAt_base D _
  rw [if_neg a, if_neg a, if_neg a]
  clear a
  rw [if_neg h3, if_neg h3]
  by_cases a : s ∈ ["LGL", "D2"]
  · rw [if_pos a, if_pos a, if_pos a]
    exact soundAt_base D _
  rw [if_neg a, if_neg a, if_neg a]
  clear a
  by_cases a : s = "LGLm"
  · rw [if_pos a, if_pos a, if_pos a]
    exact sound_lglm D 0 N
  rw [if_neg a, if_neg a, if_neg a]
  clear a
  by_cases a : s ∈ ["JG", "JG_inv", "JG2"]
  · rw [if_pos a, if_pos a, if_pos a]
    exact soundAt_base D _
  rw [if_neg a, if_neg a, if_neg a]
  clear a
  by_cases a : s = "JGR"
  · rw [if_pos a, if_pos a, if_pos a]
    exact soundAt_base D _
  rw [if_neg a, if_neg a, if_neg a]
  clear a
  by_cases a : s = "JGR_inv"
  · rw [if_pos a, if_pos a, if_pos a]
    exact soundAt_base D _
  rw [if_neg a, if_neg a, if_neg a]
  clear a
  by_cases a : s = "JGL"
  · rw [if_pos a, if_pos a, if_pos a]
    exact soundAt_base D _
  rw [if_neg a, if_neg a, if_neg a]
  clear a
  have a : s ∉ ["CG", "CG_inv", "CG2"] := by simp [h_CG, h_CG_inv, h_CG2]
  rw [if_neg a, if_neg a, if_neg h_CGR, if_neg h_CGR, if_neg h_CGR_inv, if_neg h_CGR_inv, if_neg h_CGL, if_neg h_CGL]
  exact fun s own hi => ⟨own, fun _ _ => rfl, le_rfl, hi, rfl⟩

theorem sound_bu (D : Key → Prop) (sp N : ℕ) (s : String) (o : ℕ) : Sound D (.bu N s o) (bu sp N s o) := by
  refine sound_cached sp ?_
  by_cases h3 : s = "LGR_inv"
  · subst h3
    exact sound_derive (sound_base D 0 (.LGR N)) rfl rfl (by simp [reads, buReads])
  by_cases h_CG : s = "CG"
  · subst h_CG
    exact sound_fresh (v := CG N) rfl rfl
  by_cases h_CGR : s = "CGR"
  · subst h_CGR
    exact sound_fresh (v := CGR N) rfl rfl
  by_cases h_CGR_inv : s = "CGR_inv"
  · subst h_CGR_inv
    exact sound_fresh (v := negRev (CGR N)) rfl rfl
  by_cases h_CGL : s = "CGL"
  · subst h_CGL
    exact sound_fresh (v := CGL N) rfl rfl
  show SoundAt D (buRoot N s o) (buCollPoints N s o) _
  rw [buRoot, buCollPoints]
  simp only [List.mem_singleton]
  by_cases a : s = "LG"
  · rw [if_pos a, if_pos a, if_pos a]
    exact soundAt_base D _
  rw [if_neg a, if_neg a, if_neg a]
  clear a
  by_cases a : s = "LGR"
  · rw [if_pos a, if_pos a, if_pos a]
    exact soundAt_base D _
  rw [if_neg a, if_neg a, if_neg a]
  clear a
  rw [if_neg h3, if_neg h3]
  by_cases a : s = "LGL"
  · rw [if_pos a, if_pos a, if_pos a]
    exact soundAt_base D _
  rw [if_neg a, if_neg a, if_neg a]
  clear a
  by_cases a : s = "JG"
  · rw [if_pos a, if_pos a, if_pos a]
    exact soundAt_base D _
  rw [if_neg a, if_neg a, if_neg a]
  clear a
  by_cases a : s = "JGR"
  · rw [if_pos a, if_pos a, if_pos a]
    exact soundAt_base D _
  rw [if_neg a, if_neg a, if_neg a]
  clear a
  by_cases a : s = "JGR_inv"
  · rw [if_pos a, if_pos a, if_pos a]
    exact soundAt_base D _
  rw [if_neg a, if_neg a, if_neg a]
  clear a
  by_cases a : s = "JGL"
  · rw [if_pos a, if_pos a, if_pos a]
    exact soundAt_base D _
  rw [if_neg a, if_neg a, if_neg a]
  clear a
  rw [if_neg h_CG, if_neg h_CG, if_neg h_CGR, if_neg h_CGR, if_neg h_CGR_inv, if_neg h_CGR_inv, if_neg h_CGL, if_neg h_CGL]
  exact fun s own hi => ⟨own, fun _ _ => rfl, le_rfl, hi, rfl⟩

theorem sound_node (D : Key → Prop) (sp N : ℕ) (s : String) : Sound D (.node N s) (node sp N s) := by
  refine sound_cached sp ?_
  by_cases a : s ∈ gaussLike ++ radauInv
  · have h1 : s ∉ lobatoLike := by clear * - a; revert s; decide
    have h2 : s ≠ "D2" := by clear * - a; revert s; decide
    have h3 : s ∉ gauss2 := by clear * - a; revert s; decide
    rw [if_pos a]
    refine sound_derive (sound_coll D 1 (N - 1) s 2) (by rw [root, if_neg h1, if_neg h2]) ?_ ?_
    · rw [show wanted (.node N _) = nodePoints N _ from rfl, nodePoints, if_pos a]; rfl
    · rw [reads, reads, if_neg h1, if_neg h3, if_neg h2]
      exact fun d hd => List.mem_cons_of_mem _ hd
  rw [if_neg a]
  by_cases b : s ∈ gaussInv ++ radauLike
  · have h1 : s ∉ lobatoLike := by clear * - b; revert s; decide
    have h2 : s ≠ "D2" := by clear * - b; revert s; decide
    have h3 : s ∉ gauss2 := by clear * - b; revert s; decide
    rw [if_pos b]
    refine sound_derive (sound_coll D 1 (N - 1) s 2) (by rw [root, if_neg h1, if_neg h2]) ?_ ?_
    · rw [show wanted (.node N _) = nodePoints N _ from rfl, nodePoints, if_neg a, if_pos b]; rfl
    · rw [reads, reads, if_neg h1, if_neg h3, if_neg h2]
      exact fun d hd => List.mem_cons_of_mem _ hd
  rw [if_neg b]
  by_cases c : s ∈ lobatoLike
  · rw [if_pos c]
    refine sound_alias (sound_coll D 1 N s 2) (by rw [root, root, if_pos c]) ?_
    rw [show wanted (.node N _) = nodePoints N _ from rfl, nodePoints, if_neg a, if_neg b, if_pos c]; rfl
  rw [if_neg c]
  by_cases d : s ∈ gauss2
  · have h2 : s ≠ "D2" := by clear * - d; revert s; decide
    rw [if_pos d]
    refine sound_derive (sound_coll D 1 (N - 2) s 2) (by rw [root, if_neg c, if_neg h2]) ?_ ?_
    · rw [show wanted (.node N _) = nodePoints N _ from rfl, nodePoints, if_neg a, if_neg b, if_neg c, if_pos d]; rfl
    · rw [reads, reads, if_neg c, if_pos d]
      exact fun d hd => List.mem_cons_of_mem _ hd
  rw [if_neg d]
  by_cases e : s ∈ otherSchemes
  · have : s = "D2" := by clear * - e; revert s; decide
    subst this
    rw [if_pos e, if_pos (by decide)]
    refine sound_alias (sound_base D 0 (.LGL N)) (by rw [root, root, if_neg c, if_pos rfl]) ?_
    rw [show wanted (.node N _) = nodePoints N _ from rfl, nodePoints, if_neg a, if_neg b, if_neg c, if_neg d, if_pos e, if_pos (by decide)]; rfl
  rw [if_neg e]
  refine sound_fail ?_
  rw [show wanted (.node N _) = nodePoints N _ from rfl, nodePoints, if_neg a, if_neg b, if_neg c, if_neg d, if_neg e]

theorem sound_buConstr (D : Key → Prop) (sp N : ℕ) (s : String) (o : ℕ) : Sound D (.buConstr N s o) (buConstr sp N s o) := by
  refine sound_cached sp ?_
  have hs : ∀ d ∈ reads (.bu N s o), d ∈ reads (.buConstr N s o) := fun d hd => List.mem_cons_of_mem _ hd
  have hw : wanted (.buConstr N s o) = buConstructionPoints N s o := rfl
  by_cases a : s ∈ gaussLike
  · have h1 : s ∉ radauInv := by clear * - a; revert s; decide
    rw [if_pos a]
    refine sound_derive (sound_bu D 0 N s o) (by rw [root, if_neg h1]) ?_ hs
    rw [hw, buConstructionPoints]
    simp only [a, if_true]
    rfl
  rw [if_neg a]
  by_cases b : s ∈ radauLike
  · have h1 : s ∉ radauInv := by clear * - b; revert s; decide
    rw [if_pos b]
    refine sound_derive (sound_bu D 0 N s o) (by rw [root, if_neg h1]) ?_ hs
    rw [hw, buConstructionPoints]
    simp only [a, b, if_true, if_false]
    rfl
  rw [if_neg b]
  by_cases c : s ∈ radauInv
  · rw [if_pos c]
    refine sound_alias (sound_bu D 0 N s o) (by rw [root, root, if_pos c]) ?_
    rw [hw, buConstructionPoints, wanted]
    simp only [a, b, c, if_true, if_false]
    cases buCollPoints N s o <;> rfl
  rw [if_neg c]
  by_cases d : s ∈ lobatoLike
  · rw [if_pos d]
    refine sound_derive (sound_bu D 0 N s o) (by rw [root, if_neg c]) ?_ hs
    rw [hw, buConstructionPoints]
    simp only [a, b, c, d, if_true, if_false]
    rfl
  rw [if_neg d]
  refine sound_then_fail (sound_bu D 0 N s o) ?_
  rw [hw, buConstructionPoints]
  simp only [a, b, c, d, if_false]
  rfl

theorem sound_tdConstr (D : Key → Prop) (sp N : ℕ) (s : String) (o : ℕ) : Sound D (.tdConstr N s o) (tdConstr sp N s o) := by
  refine sound_cached sp ?_
  have hs : ∀ d ∈ reads (.bu N s o), d ∈ reads (.tdConstr N s o) := fun d hd => List.mem_cons_of_mem _ hd
  have hw : wanted (.tdConstr N s o) = tdConstructionPoints N s o := rfl
  by_cases a : s ∈ gaussLike
  · have h1 : s ∉ lobatoLike := by clear * - a; revert s; decide
    rw [if_pos a]
    refine sound_derive (sound_bu D 0 N s o) (by rw [root, if_neg h1]) ?_ hs
    rw [hw, tdConstructionPoints]
    simp only [a, if_true]
    rfl
  rw [if_neg a]
  by_cases b : s ∈ radauLike
  · have h1 : s ∉ lobatoLike := by clear * - b; revert s; decide
    rw [if_pos b]
    refine sound_derive (sound_bu D 0 N s o) (by rw [root, if_neg h1]) ?_ hs
    rw [hw, tdConstructionPoints]
    simp only [a, b, if_true, if_false]
    rfl
  rw [if_neg b]
  by_cases c : s ∈ radauInv
  · have h1 : s ∉ lobatoLike := by clear * - c; revert s; decide
    rw [if_pos c]
    refine sound_derive (sound_bu D 0 N s o) (by rw [root, if_neg h1]) ?_ hs
    rw [hw, tdConstructionPoints]
    simp only [a, b, c, if_true, if_false]
    rfl
  rw [if_neg c]
  by_cases d : s ∈ lobatoLike
  · rw [if_pos d]
    refine sound_alias (sound_bu D 0 N s o) (by rw [root, root, if_pos d]) ?_
    rw [hw, tdConstructionPoints, wanted]
    simp only [a, b, c, d, if_true, if_false]
    cases buCollPoints N s o <;> rfl
  rw [if_neg d]
  refine sound_then_fail (sound_bu D 0 N s o) ?_
  rw [hw, tdConstructionPoints]
  simp only [a, b, c, d, if_false]
  rfl

theorem sound_call (D : Key → Prop) (sp : ℕ) (k : Key) : Sound D k (call sp k) := by
  cases k with
  | base b => exact sound_base D sp b
  | lglm N => exact sound_lglm D sp N
  | coll N s o => exact sound_coll D sp N s o
  | node N s => exact sound_node D sp N s
  | bu N s o => exact sound_bu D sp N s o
  | buConstr N s o => exact sound_buConstr D sp N s o
  | tdConstr N s o => exact sound_tdConstr D sp N s o

/-- A program that returns the number of a call. -/
def SoundV (D : Key → Prop) (k : VKey) (p : Prog ℝ) : Prop := ∀ s own, Inv D own s → ∃ own', (∀ a < s.next, own' a = own a) ∧ s.next ≤ (p s).2.next ∧
  Inv D own' (p s).2 ∧ match (p s).1 with
    | .ok v => (∃ l, wantedV k = .ok l) ∧ ((∀ d ∈ readsV k, ¬D d) → wantedV k = .ok v)
    | .error e => wantedV k = .error e

theorem soundV_of {D : Key → Prop} {j : Key} {k : VKey} {p : Prog ℕ} {g : List ℝ → ℝ} (h : Sound D j p) (hw : wantedV k = (wanted j).map g) (hr : readsV k = reads j) :
    SoundV D k (p.bind fun a s => (.ok (g (s.heap a)), s)) := fun s own hi => by
  obtain ⟨own', h1, h2, h3, h4⟩ := h s own hi
  unfold Prog.bind
  generalize p s = r at h2 h3 h4
  obtain ⟨res, s'⟩ := r
  cases res with
  | error er =>
    dsimp only at h4 ⊢
    exact ⟨own', h1, h2, h3, by rw [hw, h4]; rfl⟩
  | ok a =>
    dsimp only at h2 h3 h4 ⊢
    obtain ⟨h5, h6, l, h7⟩ := h4
    refine ⟨own', h1, h2, h3, ⟨g l, by rw [hw, h7]; rfl⟩, fun hc => ?_⟩
    rw [hw, inv_right h3 h5 h6 fun d hd => hc d (hr ▸ hd)]
    rfl

theorem soundV_stored {D : Key → Prop} {k : VKey} {p : Prog ℝ} (h : SoundV D k p) : SoundV D k (fun s => match s.diskV k with
    | some v => (.ok v, s)
    | none => p.bind (fun v s => (.ok v, { s with diskV := Function.update s.diskV k (some v) })) s) := fun s own hi => by
  cases e : s.diskV k with
  | some v => exact ⟨own, fun _ _ => rfl, by simp only [e, le_refl], by simpa only [e] using hi, by simpa only [e] using hi.diskV k v e⟩
  | none =>
    simp only [e]
    obtain ⟨own', h1, h2, h3, h4⟩ := h s own hi
    dsimp only [Prog.bind]
    generalize p s = r at h2 h3 h4
    obtain ⟨res, s'⟩ := r
    cases res with
    | error er => exact ⟨own', h1, h2, h3, h4⟩
    | ok a =>
      dsimp only at h2 h3 h4 ⊢
      refine ⟨own', h1, h2, ⟨h3.fixed, h3.heap, h3.lru, h3.disk, h3.lruV, fun j v hj => ?_⟩, h4⟩
      dsimp only at hj
      by_cases hk : j = k
      · subst hk
        rw [Function.update_self] at hj
        cases hj
        exact h4
      · rw [Function.update_of_ne hk] at hj
        exact h3.diskV _ _ hj

theorem soundV_cached {D : Key → Prop} {k : VKey} {p : Prog ℝ} (sp : ℕ) (h : SoundV D k p) : SoundV D k (fun s => match s.lruV sp k with
    | some v => (.ok v, s)
    | none => p.bind (fun v s => (.ok v, { s with lruV := Function.update s.lruV sp (Function.update (s.lruV sp) k (some v)) })) s) := fun s own hi => by
  cases e : s.lruV sp k with
  | some v => exact ⟨own, fun _ _ => rfl, by simp only [e, le_refl], by simpa only [e] using hi, by simpa only [e] using hi.lruV sp k v e⟩
  | none =>
    simp only [e]
    obtain ⟨own', h1, h2, h3, h4⟩ := h s own hi
    dsimp only [Prog.bind]
    generalize p s = r at h2 h3 h4
    obtain ⟨res, s'⟩ := r
    cases res with
    | error er => exact ⟨own', h1, h2, h3, h4⟩
    | ok a =>
      dsimp only at h2 h3 h4 ⊢
      refine ⟨own', h1, h2, ⟨h3.fixed, h3.heap, h3.lru, h3.disk, fun sp' j b hj => ?_, h3.diskV⟩, h4⟩
      dsimp only at hj ⊢
      by_cases hs : sp' = sp
      · subst hs
        rw [Function.update_self] at hj
        by_cases hk : j = k
        · subst hk
          rw [Function.update_self] at hj
          cases hj
          exact h4
        · rw [Function.update_of_ne hk] at hj
          exact h3.lruV _ _ _ hj
      · rw [Function.update_of_ne hs] at hj
        exact h3.lruV _ _ _ hj

theorem sound_callV (D : Key → Prop) (sp : ℕ) (k : VKey) : SoundV D k (callV sp k) := by
  refine soundV_cached sp (soundV_stored ?_)
  cases k with
  | node N i s o =>
    dsimp only
    by_cases h : 2 < o
    · rw [if_pos h]
      exact fun s own hi => ⟨own, fun _ _ => rfl, le_rfl, hi, by rw [wantedV, Bary.vCoef, if_pos h]⟩
    · rw [if_neg h]
      refine soundV_of (g := fun t => Bary.vSum t.length (Bary.arr t) i) (sound_node D 0 N s) ?_ rfl
      rw [wantedV, Bary.vCoef, if_neg h]
      rfl
  | coll N i s o => exact soundV_of (g := fun t => Bary.vSum t.length (Bary.arr t) i) (sound_coll D 0 N s o) rfl rfl

/-! ### Sessions -/

theorem Inv.mono {D D' : Key → Prop} {own : ℕ → Key} {s : St} (hi : Inv D own s) (h : ∀ d, D d → D' d) : Inv D' own s :=
  ⟨hi.fixed, fun a ha hc => hi.heap a ha fun d hd hD => hc d hd (h d hD), hi.lru,
    fun k v hk => ⟨(hi.disk k v hk).1, fun hc => (hi.disk k v hk).2 fun d hd hD => hc d hd (h d hD)⟩,
    fun sp k v hk => ⟨(hi.lruV sp k v hk).1, fun hc => (hi.lruV sp k v hk).2 fun d hd hD => hc d hd (h d hD)⟩,
    fun k v hk => ⟨(hi.diskV k v hk).1, fun hc => (hi.diskV k v hk).2 fun d hd hD => hc d hd (h d hD)⟩⟩

/-- The state of a session is right where its lists were not changed. -/
def RunInv (r : Run) : Prop := ∃ own, Inv (fun d => d ∈ r.edited.map root) own r.st ∧ ∀ k a, (k, a) ∈ r.got → a < r.st.next ∧ own a = root k

theorem step_inv (r : Run) (op : Op) (h : RunInv r) : RunInv (step r op) := by
  obtain ⟨own, hi, hg⟩ := h
  cases op with
  | call sp k =>
    obtain ⟨own', h1, h2, h3, h4⟩ := sound_call _ sp k r.st own hi
    rw [step]
    generalize SharedLists.call sp k r.st = q at h2 h3 h4
    obtain ⟨res, s'⟩ := q
    cases res with
    | error e => exact ⟨own', h3, fun k a hk => ⟨by have := (hg k a hk).1; dsimp only at h2 ⊢; omega, by rw [h1 a (hg k a hk).1]; exact (hg k a hk).2⟩⟩
    | ok b =>
      refine ⟨own', h3, fun j a hj => ?_⟩
      dsimp only at hj h2 h4 ⊢
      rw [List.mem_append] at hj
      rcases hj with hj | hj
      · exact ⟨by have := (hg j a hj).1; omega, by rw [h1 a (hg j a hj).1]; exact (hg j a hj).2⟩
      · rw [List.mem_singleton] at hj
        cases hj
        exact ⟨h4.1, h4.2.1⟩
  | callV sp k =>
    obtain ⟨own', h1, h2, h3, h4⟩ := sound_callV _ sp k r.st own hi
    exact ⟨own', h3, fun k a hk => ⟨lt_of_lt_of_le (hg k a hk).1 h2, by rw [h1 a (hg k a hk).1]; exact (hg k a hk).2⟩⟩
  | edit i f =>
    rw [step]
    cases e : r.got[i]? with
    | none => exact ⟨own, hi, hg⟩
    | some p =>
      obtain ⟨k, a⟩ := p
      obtain ⟨ha, ho⟩ := hg k a (List.mem_of_getElem? e)
      have hm := hi.mono (D' := fun d => d ∈ (k :: r.edited).map root) fun d hd => List.mem_cons_of_mem _ hd
      refine ⟨own, ⟨hm.fixed, fun b hb hc => ?_, hm.lru, hm.disk, hm.lruV, hm.diskV⟩, hg⟩
      by_cases hab : b = a
      · subst hab
        refine absurd ?_ (hc (own b) (by have := root_mem (own b); rwa [hi.fixed b ha] at this))
        dsimp only
        rw [ho]
        exact List.mem_cons_self
      · dsimp only
        rw [Function.update_of_ne hab]
        exact hm.heap b hb hc
  | evict sp k =>
    refine ⟨own, ⟨hi.fixed, hi.heap, fun sp' j a hj => ?_, hi.disk, hi.lruV, hi.diskV⟩, hg⟩
    rw [step] at hj
    dsimp only at hj
    by_cases hs : sp' = sp
    · subst hs
      rw [Function.update_self] at hj
      by_cases hk : j = k
      · subst hk
        rw [Function.update_self] at hj
        cases hj
      · rw [Function.update_of_ne hk] at hj
        exact hi.lru _ _ _ hj
    · rw [Function.update_of_ne hs] at hj
      exact hi.lru _ _ _ hj
  | restart => exact ⟨own, ⟨hi.fixed, hi.heap, fun _ _ _ h => (by cases h), hi.disk, fun _ _ _ h => (by cases h), hi.diskV⟩, hg⟩

theorem run_inv (ops : List Op) : ∀ r, RunInv r → RunInv (run r ops) := by
  induction ops with
  | nil => exact fun r h => h
  | cons op ops ih => exact fun r h => ih _ (step_inv r op h)

theorem start_inv {disk : Key → Option (List ℝ)} {diskV : VKey → Option ℝ} (h1 : ∀ k v, disk k = some v → wanted k = .ok v)
    (h2 : ∀ k v, diskV k = some v → wantedV k = .ok v) : RunInv (start disk diskV) :=
  ⟨fun _ => .lglm 0, ⟨fun a ha => absurd ha (by simp [start]), fun a ha => absurd ha (by simp [start]), fun _ _ _ h => (by cases h),
    fun k v h => ⟨⟨v, h1 k v h⟩, fun _ => h1 k v h⟩, fun _ _ _ h => (by cases h), fun k v h => ⟨⟨v, h2 k v h⟩, fun _ => h2 k v h⟩⟩, fun _ _ h => by cases h⟩

/-- The lists of points that a session returns. The files hold right results at the start. In any sequence of calls with arguments written in any way, changes made to
the lists returned, losses of cache entries and new processes, a call returns the right points, or the right exception, if no change was made to a list which is the one it
returns or one it reads. Full property: whatever was changed (see `C180_refuted`). -/
theorem C180_partial {disk : Key → Option (List ℝ)} {diskV : VKey → Option ℝ} (h1 : ∀ k v, disk k = some v → wanted k = .ok v)
    (h2 : ∀ k v, diskV k = some v → wantedV k = .ok v) (ops : List Op) (sp : ℕ) (k : Key)
    (hc : ∀ d ∈ reads k, ∀ e ∈ (run (start disk diskV) ops).edited, root e ≠ d) : contents (call sp k) (run (start disk diskV) ops).st = wanted k := by
  obtain ⟨own, hi, hg⟩ := run_inv ops _ (start_inv h1 h2)
  obtain ⟨own', h3, h4, h5, h6⟩ := sound_call _ sp k _ own hi
  rw [contents]
  generalize call sp k (run (start disk diskV) ops).st = q at h4 h5 h6
  obtain ⟨res, s'⟩ := q
  cases res with
  | error e => exact h6.symm
  | ok a =>
    refine (inv_right h5 h6.1 h6.2.1 fun d hd hD => ?_).symm
    obtain ⟨e, he, hed⟩ := List.mem_map.1 hD
    exact hc d hd e he hed

/-- The same for the coefficients. -/
theorem C180_coef_partial {disk : Key → Option (List ℝ)} {diskV : VKey → Option ℝ} (h1 : ∀ k v, disk k = some v → wanted k = .ok v)
    (h2 : ∀ k v, diskV k = some v → wantedV k = .ok v) (ops : List Op) (sp : ℕ) (k : VKey)
    (hc : ∀ d ∈ readsV k, ∀ e ∈ (run (start disk diskV) ops).edited, root e ≠ d) : (callV sp k (run (start disk diskV) ops).st).1 = wantedV k := by
  obtain ⟨own, hi, hg⟩ := run_inv ops _ (start_inv h1 h2)
  obtain ⟨own', h3, h4, h5, h6⟩ := sound_callV _ sp k _ own hi
  generalize callV sp k (run (start disk diskV) ops).st = q at h4 h5 h6
  obtain ⟨res, s'⟩ := q
  cases res with
  | error e => exact h6.symm
  | ok a =>
    refine (h6.2 fun d hd hD => ?_).symm
    obtain ⟨e, he, hed⟩ := List.mem_map.1 hD
    exact hc d hd e he hed

/-- With no changes at all every call returns the right points. -/
theorem C180_unchanged (ops : List Op) (h : ∀ op ∈ ops, ∀ i f, op ≠ .edit i f) (sp : ℕ) (k : Key) :
    contents (call sp k) (run (start (fun _ => none) fun _ => none) ops).st = wanted k := by
  have he : ∀ r, (run r ops).edited = r.edited := by
    induction ops with
    | nil => exact fun r => rfl
    | cons op ops ih =>
      intro r
      refine (ih (fun o ho => h o (List.mem_cons_of_mem _ ho)) (step r op)).trans ?_
      cases op with
      | call sp k =>
        rw [step]
        generalize SharedLists.call sp k r.st = q
        obtain ⟨res, s'⟩ := q
        cases res <;> rfl
      | callV sp k => rfl
      | edit i f => exact absurd rfl (h _ List.mem_cons_self i f)
      | evict sp k => rfl
      | restart => rfl
  refine C180_partial (fun _ _ h => by cases h) (fun _ _ h => by cases h) ops sp k fun d _ e hm => ?_
  rw [he] at hm
  cases hm

/-- A change to the list returned by `coll_points` changes what `node_points` returns. -/
theorem C180_refuted (N : ℕ) : contents (call 0 (.node (N + 1) "LG")) (run (start (fun _ => none) fun _ => none)
    [.call 0 (.coll N "LG" 2), .edit 0 (· ++ [1])]).st = .ok ([-1] ++ (LG N ++ [1])) ∧ wanted (.node (N + 1) "LG") = .ok ([-1] ++ LG N) := by
  constructor
  · simp [run, start, step, call, coll, node, base, cached, stored, Prog.bind, fresh, contents, derive, Function.update, gaussLike, radauInv, Base.value]
  · rfl

/-- A change can reach the files, and with them later processes. -/
theorem C180_disk_refuted (N : ℕ) : contents (call 0 (.lglm N)) (run (start (fun _ => none) fun _ => none)
    [.call 0 (.base (.LGL (N + 2))), .edit 0 (fun _ => []), .call 0 (.lglm N), .restart]).st = .ok [] ∧
    wanted (.lglm N) = .ok (LGLm N) ∧ (LGLm N).length = N := by
  refine ⟨?_, rfl, Shape.length (LGLm_shape N)⟩
  simp [run, start, step, call, lglm, base, cached, stored, Prog.bind, fresh, contents, derive, Function.update, Base.value]

theorem LG_one : ∃ t, LG 1 = [t] ∧ t < 1 := by
  obtain ⟨n, inner, h1, h2, h3⟩ := LG_shape 1
  have hl := Shape.length (LG_shape 1)
  obtain ⟨t, ht⟩ := List.length_eq_one_iff.1 hl
  refine ⟨t, ht, (h1.2.2 t ?_).2⟩
  have : inner = [t] := by rw [← ht, h3]; simp
  simp [this]

/-- A wrong coefficient that is saved. -/
theorem C180_coef_refuted : (callV 0 (.coll 1 0 "LG" 2) (run (start (fun _ => none) fun _ => none)
    [.call 0 (.coll 1 "LG" 2), .edit 0 (· ++ [1]), .callV 0 (.coll 1 0 "LG" 2), .restart]).st).1 = .ok (-1 / 2) ∧ wantedV (.coll 1 0 "LG" 2) = .ok 1 := by
  obtain ⟨t, ht, hlt⟩ := LG_one
  constructor
  · have e : Bary.vSum ((LG 1).length + 1) (Bary.arr (LG 1 ++ [1])) 0 = -1 / 2 := by
      have him : Bary.arr ([t] ++ [1]) '' {i | i < 2} = {t, 1} := by
        ext x
        constructor
        · rintro ⟨i, hi, rfl⟩
          have : i = 0 ∨ i = 1 := by simp at hi; omega
          rcases this with rfl | rfl <;> simp [Bary.arr]
        · rintro (rfl | rfl)
          · exact ⟨0, by simp, by simp [Bary.arr]⟩
          · exact ⟨1, by simp, by simp [Bary.arr]⟩
      have hsp : Bary.span 2 (Bary.arr ([t] ++ [1])) = 1 - t := by
        rw [Bary.span, him, csSup_pair, csInf_pair, sup_eq_right.2 hlt.le, inf_eq_left.2 hlt.le]
      have her : (Finset.range 2).erase 0 = {1} := by decide
      rw [ht]
      show Bary.vSum 2 (Bary.arr ([t] ++ [1])) 0 = _
      rw [Bary.vSum]
      simp only [hsp, her, Finset.prod_singleton]
      have h0 : (1 : ℝ) - t ≠ 0 := by linarith
      have a0 : Bary.arr ([t] ++ [1]) 0 = t := rfl
      have a1 : Bary.arr ([t] ++ [1]) 1 = 1 := rfl
      rw [a0, a1, ← sub_mul, show t - 1 = -(1 - t) by ring]
      field_simp
      norm_num
    simp [run, start, step, call, callV, coll, base, cached, stored, Prog.bind, fresh, Function.update, Base.value, e]
  · have : collPoints 1 "LG" 2 = .ok [t] := by rw [← ht]; rfl
    rw [wantedV, Bary.vCoefColl, this]
    show Except.ok _ = _
    congr 1
    simp [Bary.vSum]

/-- Non-vacuity of `C180_partial`: a session with a change, after which another call is right. -/
example : contents (call 0 (.node 4 "LGL")) (run (start (fun _ => none) fun _ => none) [.call 0 (.coll 3 "LG" 2), .edit 0 (· ++ [1])]).st = .ok (LGL 4) := by
  rw [C180_partial (fun _ _ h => by cases h) (fun _ _ h => by cases h)]
  · rfl
  · intro d hd e he
    have : e = .coll 3 "LG" 2 := by
      simpa [run, start, step, call, coll, base, cached, stored, Prog.bind, fresh] using he
    subst this
    have : d = .base (.LGL 4) := by simpa [reads, root, collRoot, collReads, lobatoLike] using hd
    subst this
    decide

end Chords.Props
