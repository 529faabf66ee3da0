import Verif.Model.Interpolation
import Verif.Lemmas.DynErr
import Verif.Props.Problem

namespace Chords.Interpolation
open Chords.Interp Chords.PsInterp Chords.BuTdInterp Chords.DynErr Chords.Problem Chords.Props

/-! ## Dictionaries -/

/-- The keys, in order. -/
def Arrays.keys (d : Arrays) : List String := d.map (·.1)

theorem find_map (d : Arrays) (k k' : String) (v : Arr2) :
    (d.map fun e => if e.1 == k then (k, v) else e).find? (fun e => e.1 == k') =
      if k' = k then (d.find? fun e => e.1 == k).map fun _ => (k, v) else d.find? fun e => e.1 == k' := by
  induction d with
  | nil => simp
  | cons e d ih =>
    simp only [List.map_cons, List.find?_cons]
    by_cases he : e.1 = k
    · subst he
      by_cases hk : k' = e.1
      · subst hk; simp
      · have : (e.1 == k') = false := by simpa using fun h => hk h.symm
        simp only [beq_self_eq_true, if_true, this, ih, hk, if_false]
    · have h1 : (e.1 == k) = false := by simpa using he
      simp only [h1, Bool.false_eq_true, if_false]
      by_cases hk : k' = k
      · subst hk
        simp only [h1, ih, if_true]
      · rw [ih]; simp only [hk, if_false]

theorem get_set (d : Arrays) (k k' : String) (v : Arr2) :
    (d.set k v).get k' = if k' = k then some v else d.get k' := by
  unfold Arrays.set Arrays.get
  split_ifs with h1 h2 h2
  · subst h2
    rw [find_map, if_pos rfl]
    obtain ⟨e, he, hk⟩ := List.any_eq_true.1 h1
    obtain ⟨e', he'⟩ := Option.isSome_iff_exists.1 (List.find?_isSome (p := fun e : String × Arr2 => e.1 == k') |>.2 ⟨e, he, hk⟩)
    simp [he']
  · rw [find_map, if_neg h2]
  · subst h2
    have : d.find? (fun e => e.1 == k') = none := by
      rw [List.find?_eq_none]
      intro e he hk
      exact h1 (List.any_eq_true.2 ⟨e, he, hk⟩)
    simp [List.find?_append, this]
  · rw [List.find?_append]
    have : ([(k, v)] : Arrays).find? (fun e => e.1 == k') = none := by
      simpa using fun h => h2 h.symm
    rw [this, Option.or_none]

theorem keys_set (d : Arrays) (k : String) (v : Arr2) :
    (d.set k v).keys = if k ∈ d.keys then d.keys else d.keys ++ [k] := by
  have e : (d.any fun e => e.1 == k) = true ↔ k ∈ d.keys := by
    simp [Arrays.keys]
  unfold Arrays.set
  by_cases h : k ∈ d.keys
  · rw [if_pos (e.2 h), if_pos h]
    unfold Arrays.keys
    rw [List.map_map]
    apply List.map_congr_left
    intro a _
    simp only [Function.comp]
    split_ifs with h'
    · simpa using (by simpa using h' : a.1 = k).symm
    · rfl
  · rw [if_neg (fun h' => h (e.1 h')), if_neg h]
    simp [Arrays.keys]

theorem get_isSome (d : Arrays) (k : String) : (d.get k).isSome ↔ k ∈ d.keys := by
  simp [Arrays.get, Arrays.keys]

/-! ## Names -/

theorem split_at {a b x y : List Char} (ha : ∀ c ∈ a, c ≠ '_') (hb : ∀ c ∈ b, c ≠ '_')
    (hx : x = [] ∨ x.head? = some '_') (hy : y = [] ∨ y.head? = some '_') (h : a ++ x = b ++ y) : a = b ∧ x = y := by
  induction a generalizing b with
  | nil =>
    cases b with
    | nil => exact ⟨rfl, h⟩
    | cons c b =>
      exfalso
      simp only [List.nil_append, List.cons_append] at h
      rcases hx with rfl | hx
      · simp at h
      · rw [h] at hx
        exact hb c (by simp) (by simpa using hx)
  | cons c a ih =>
    cases b with
    | nil =>
      exfalso
      simp only [List.nil_append, List.cons_append] at h
      rcases hy with rfl | hy
      · simp at h
      · rw [← h] at hy
        exact ha c (by simp) (by simpa using hy)
    | cons c' b =>
      simp only [List.cons_append, List.cons.injEq] at h
      obtain ⟨h1, h2⟩ := ih (fun c hc => ha c (by simp [hc])) (fun c hc => hb c (by simp [hc])) h.2
      exact ⟨by rw [h.1, h1], h2⟩

theorem dName_zero (n : String) : dName n 0 = n := by
  simp [dName]

theorem dName_inj {n m : String} {i j : ℕ} (hn : ∀ c ∈ n.toList, c ≠ '_') (hm : ∀ c ∈ m.toList, c ≠ '_')
    (h : dName n i = dName m j) : n = m ∧ i = j := by
  have hs : ∀ i : ℕ, (List.replicate i ['_', 'd']).flatten = [] ∨
      ((List.replicate i ['_', 'd']).flatten).head? = some '_' := by
    intro i
    cases i with
    | zero => left; rfl
    | succ i => right; rw [List.replicate_succ]; rfl
  have h1 := congrArg String.toList h
  simp only [dName, String.toList_append, String.toList_ofList] at h1
  obtain ⟨h2, h3⟩ := split_at hn hm (hs i) (hs j) h1
  refine ⟨String.toList_injective h2, ?_⟩
  have := congrArg List.length h3
  simp at this
  omega

theorem x_plain : ∀ c ∈ ("x" : String).toList, c ≠ '_' := by decide
theorem u_plain : ∀ c ∈ ("u" : String).toList, c ≠ '_' := by decide
theorem t_plain : ∀ c ∈ ("t" : String).toList, c ≠ '_' := by decide

theorem names_get {p k : ℕ} (hk : k ≤ p) : ∃ n, (qAndDersNames p)[k]? = some n ∧ n ∈ qAndDersNames p := by
  have hl := (C59_names p).1
  exact ⟨(qAndDersNames p)[k]'(by omega), List.getElem?_eq_getElem (by omega), List.getElem_mem _⟩

theorem names_inj {p k k' : ℕ} {n : String} (h : (qAndDersNames p)[k]? = some n) (h' : (qAndDersNames p)[k']? = some n) :
    k = k' := by
  obtain ⟨h1, h2⟩ := List.getElem?_eq_some_iff.1 h
  obtain ⟨h1', h2'⟩ := List.getElem?_eq_some_iff.1 h'
  exact (List.Nodup.getElem_inj_iff (C59_names p).2.1).1 (h2.trans h2'.symm)

/-! ## Distribution of the arrays -/

/-- What `interpolation` promises about its dictionary: there are `n` instants and `n_q` coordinates, and `g ii` are the
values of the derivative of order `ii` of the states. The blocks of columns are stored under the names of the derivatives of
`q`, with `ii` times "_d" for each order. -/
structure Distributed (p n n_q : ℕ) (g : ℕ → ℕ → ℕ → ℝ) (d : Arrays) : Prop where
  whole : ∀ ii ≤ p, ∃ a, d.get (dName "x" ii) = some a ∧ Holds n (p * n_q) (g ii) a
  block : ∀ ii jj, jj + max 1 ii ≤ p → ∃ name a, (qAndDersNames p)[jj]? = some name ∧ d.get (dName name ii) = some a ∧
    Holds n n_q (fun i c => g ii i (n_q * jj + c)) a
  last : ∃ name a, (qAndDersNames p)[p]? = some name ∧ d.get name = some a ∧
    Holds n n_q (fun i c => g 1 i (n_q * (p - 1) + c)) a

theorem nameBlocks_ok {p ii : ℕ} {divs : List Arr2} {Q : ℕ → Arr2 → Prop} (d0 : Arrays) :
    ∀ k, k ≤ p → (∀ jj < k, ∃ b, divs[jj]? = some b ∧ Q jj b) →
    ∃ d, nameBlocks (qAndDersNames p) ii divs d0 k = .ok d ∧
      (∀ jj < k, ∃ name b, (qAndDersNames p)[jj]? = some name ∧ d.get (dName name ii) = some b ∧ Q jj b) ∧
      (∀ key, (∀ jj < k, ∀ name, (qAndDersNames p)[jj]? = some name → key ≠ dName name ii) → d.get key = d0.get key) := by
  intro k
  induction k with
  | zero => intro _ _; exact ⟨d0, rfl, by simp, by simp⟩
  | succ k ih =>
    intro hk h
    obtain ⟨d, h1, h2, h3⟩ := ih (by omega) (fun jj hj => h jj (by omega))
    obtain ⟨name, hn, hmem⟩ := names_get (p := p) (k := k) (by omega)
    obtain ⟨b, hb, hQ⟩ := h k (by omega)
    refine ⟨d.set (dName name ii) b, ?_, fun jj hj => ?_, fun key hkey => ?_⟩
    · simp only [nameBlocks, h1, getE, hn, hb, bind, Except.bind, pure, Except.pure]
    · by_cases e : jj = k
      · subst e
        exact ⟨name, b, hn, by rw [get_set, if_pos rfl], hQ⟩
      · obtain ⟨name', b', m1, m2, m3⟩ := h2 jj (by omega)
        refine ⟨name', b', m1, ?_, m3⟩
        rw [get_set, if_neg, m2]
        intro e'
        obtain ⟨rfl, -⟩ := dName_inj (names_plain (List.mem_of_getElem? m1)).1 (names_plain hmem).1 e'
        exact e (names_inj m1 hn)
    · rw [get_set, if_neg (hkey k (by omega) name hn), h3 key (fun jj hj => hkey jj (by omega))]

theorem nameOrders_ok {p n n_q : ℕ} (hp : 1 ≤ p) {g : ℕ → ℕ → ℕ → ℝ} {d0 : Arrays}
    (hw : ∀ ii ≤ p, ∃ a, d0.get (dName "x" ii) = some a ∧ Holds n (p * n_q) (g ii) a) :
    ∀ k, k ≤ p + 1 → ∃ d, nameOrders (qAndDersNames p) p d0 k = .ok d ∧
      (∀ ii < k, ∀ jj, jj + max 1 ii ≤ p → ∃ name b, (qAndDersNames p)[jj]? = some name ∧ d.get (dName name ii) = some b ∧
        Holds n n_q (fun i c => g ii i (n_q * jj + c)) b) ∧
      (∀ key, (∀ ii < k, ∀ jj, jj + max 1 ii ≤ p → ∀ name, (qAndDersNames p)[jj]? = some name → key ≠ dName name ii) →
        d.get key = d0.get key) := by
  intro k
  induction k with
  | zero => intro _; exact ⟨d0, rfl, by simp, by simp⟩
  | succ ii ih =>
    intro hk
    obtain ⟨d, h1, h2, h3⟩ := ih (by omega)
    obtain ⟨a, ha, hH⟩ := hw ii (by omega)
    have hx : d.get (dName "x" ii) = some a := by
      rw [← ha]
      apply h3
      intro ii' _ jj _ name hn e
      have hm := names_plain (List.mem_of_getElem? hn)
      obtain ⟨rfl, -⟩ := dName_inj x_plain hm.1 e
      exact hm.2 (by simp)
    obtain ⟨-, hdiv⟩ := divs_holds hp hH
    obtain ⟨d', e1, e2, e3⟩ := nameBlocks_ok (p := p) (ii := ii) (divs := getXDivisions a p)
      (Q := fun jj b => Holds n n_q (fun i c => g ii i (n_q * jj + c)) b) d (p - max 1 ii + 1) (by omega)
      (fun jj hj => hdiv jj (by omega))
    refine ⟨d', ?_, fun ii' hi' jj hj => ?_, fun key hkey => ?_⟩
    · simp only [nameOrders, h1, hx, need, bind, Except.bind]; exact e1
    · by_cases e : ii' = ii
      · subst e
        exact e2 jj (by omega)
      · obtain ⟨name, b, m1, m2, m3⟩ := h2 ii' (by omega) jj hj
        refine ⟨name, b, m1, ?_, m3⟩
        rw [e3, m2]
        intro jj' _ name' hn' e'
        exact e (dName_inj (names_plain (List.mem_of_getElem? m1)).1 (names_plain (List.mem_of_getElem? hn')).1 e').2
    · rw [e3, h3]
      · exact fun ii' hi' => hkey ii' (by omega)
      · exact fun jj hj => hkey ii (by omega) jj (by omega)

theorem nameArrays_ok {p n n_q : ℕ} (hp : 1 ≤ p) {g : ℕ → ℕ → ℕ → ℝ} {d0 : Arrays}
    (hw : ∀ ii ≤ p, ∃ a, d0.get (dName "x" ii) = some a ∧ Holds n (p * n_q) (g ii) a) :
    ∃ d, nameArrays p d0 = .ok d ∧ Distributed p n n_q g d ∧ d.get "u" = d0.get "u" ∧ d.get "t" = d0.get "t" := by
  obtain ⟨d, h1, h2, h3⟩ := nameOrders_ok hp hw (p + 1) (by omega)
  obtain ⟨last, l1, l2⟩ := names_get (p := p) (k := p) (by omega)
  have hl := names_plain l2
  obtain ⟨prev, b, p1, p2, p3⟩ := h2 1 (by omega) (p - 1) (by omega)
  have keep : ∀ key, (∀ c ∈ key.toList, c ≠ '_') → key ∈ ["x", "u", "t", "f"] → ∀ ii, d.get (dName key ii) = d0.get (dName key ii) := by
    intro key hk hm ii
    apply h3
    intro ii' _ jj _ name hn e
    have hm' := names_plain (List.mem_of_getElem? hn)
    obtain ⟨rfl, -⟩ := dName_inj hk hm'.1 e
    exact hm'.2 hm
  have ne : ∀ key, (∀ c ∈ key.toList, c ≠ '_') → key ∈ ["x", "u", "t", "f"] → ∀ ii, dName key ii ≠ last := by
    intro key hk hm ii e
    rw [← dName_zero last] at e
    obtain ⟨rfl, -⟩ := dName_inj hk hl.1 e
    exact hl.2 hm
  refine ⟨d.set last b, ?_, ⟨fun ii hii => ?_, fun ii jj hj => ?_, ?_⟩, ?_, ?_⟩
  · simp only [nameArrays, h1, getE, l1, p1, need, p2, bind, Except.bind, pure, Except.pure]
  · obtain ⟨a, ha, hH⟩ := hw ii hii
    exact ⟨a, by rw [get_set, if_neg (ne "x" x_plain (by simp) ii), keep "x" x_plain (by simp), ha], hH⟩
  · obtain ⟨name, a, m1, m2, m3⟩ := h2 ii (by omega) jj hj
    refine ⟨name, a, m1, ?_, m3⟩
    rw [get_set, if_neg, m2]
    intro e
    rw [← dName_zero last] at e
    obtain ⟨rfl, rfl⟩ := dName_inj (names_plain (List.mem_of_getElem? m1)).1 hl.1 e
    have := names_inj m1 l1
    omega
  · exact ⟨last, b, l1, by rw [get_set, if_pos rfl], p3⟩
  · have h := ne "u" u_plain (by simp) 0
    have k := keep "u" u_plain (by simp) 0
    rw [dName_zero] at h k
    rw [get_set, if_neg h, k]
  · have h := ne "t" t_plain (by simp) 0
    have k := keep "t" t_plain (by simp) 0
    rw [dName_zero] at h k
    rw [get_set, if_neg h, k]

/-- The loops over the derivatives of order at least 2. -/
theorem psDerivs_ok {deriv : ℕ → Except PsErr Arr2} {Q : ℕ → Arr2 → Prop}
    (h : ∀ ii, ∃ a, deriv ii = .ok a ∧ Q ii a) (d0 : Arrays) :
    ∀ k, ∃ d, psDerivs deriv d0 k = .ok d ∧
      (∀ ii, 2 ≤ ii → ii ≤ k + 1 → ∃ a, d.get (dName "x" ii) = some a ∧ Q ii a) ∧
      (∀ key, (∀ ii, 2 ≤ ii → key ≠ dName "x" ii) → d.get key = d0.get key) := by
  intro k
  induction k with
  | zero => exact ⟨d0, rfl, fun ii h1 h2 => absurd h2 (by omega), fun _ _ => rfl⟩
  | succ k ih =>
    obtain ⟨d, h1, h2, h3⟩ := ih
    obtain ⟨a, ha, hQ⟩ := h (k + 2)
    refine ⟨d.set (dName "x" (k + 2)) a, ?_, fun ii i1 i2 => ?_, fun key hkey => ?_⟩
    · simp only [psDerivs, h1, ha, bind, Except.bind, pure, Except.pure]
    · by_cases e : ii = k + 2
      · subst e
        exact ⟨a, by rw [get_set, if_pos rfl], hQ⟩
      · obtain ⟨b, b1, b2⟩ := h2 ii i1 (by omega)
        refine ⟨b, ?_, b2⟩
        rw [get_set, if_neg, b1]
        intro e'
        exact e (dName_inj x_plain x_plain e').2
    · rw [get_set, if_neg (hkey _ (by omega)), h3 key hkey]

end Chords.Interpolation
