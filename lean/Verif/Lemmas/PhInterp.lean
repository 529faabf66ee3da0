import Verif.Props.Interpolation
import Verif.Props.PhLayout

namespace Chords.Interpolation
open Chords.PsInterp Chords.BuTdInterp Chords.DynErr Chords.Problem Chords.Props Chords.Bary Chords.Ph

/-! ## The keys of a dictionary -/

/-- The keys that `interpolation` stores: the states, their derivatives, the blocks, the controls and the instants. -/
def Named (p : ℕ) (k : String) : Prop :=
  k = "u" ∨ k = "t" ∨ (∃ ii ≤ p, k = dName "x" ii) ∨
    (∃ ii jj name, jj + max 1 ii ≤ p ∧ (qAndDersNames p)[jj]? = some name ∧ k = dName name ii) ∨
    (qAndDersNames p)[p]? = some k

theorem mem_keys_set {d : Arrays} {k k' : String} {v : Arr2} (h : k ∈ (d.set k' v).keys) : k = k' ∨ k ∈ d.keys := by
  rw [keys_set] at h
  split_ifs at h with h1
  · exact Or.inr h
  · rcases List.mem_append.1 h with h | h
    · exact Or.inr h
    · exact Or.inl (by simpa using h)

theorem getE_ok {A : Type} {l : List A} {i : ℕ} {a : A} (h : getE l i = .ok a) : l[i]? = some a := by
  unfold getE at h
  split at h
  · next h' => cases h; exact h'
  · cases h

theorem nameBlocks_keys {p ii : ℕ} {divs : List Arr2} {d0 : Arrays} (h0 : ∀ k ∈ d0.keys, Named p k) :
    ∀ (n : ℕ) (d : Arrays), n + max 1 ii ≤ p + 1 → nameBlocks (qAndDersNames p) ii divs d0 n = .ok d →
      ∀ k ∈ d.keys, Named p k := by
  intro n
  induction n with
  | zero => intro d _ h; cases h; exact h0
  | succ n ih =>
    intro d hn h k hk
    rw [nameBlocks] at h
    obtain ⟨d1, h1, h⟩ := Exc.bind_ok h
    obtain ⟨name, h2, h⟩ := Exc.bind_ok h
    obtain ⟨a, -, h⟩ := Exc.bind_ok h
    cases h
    rcases mem_keys_set hk with rfl | hk
    · exact Or.inr (Or.inr (Or.inr (Or.inl ⟨ii, n, name, by omega, getE_ok h2, rfl⟩)))
    · exact ih d1 (by omega) h1 k hk

theorem nameOrders_keys {p : ℕ} {d0 : Arrays} (h0 : ∀ k ∈ d0.keys, Named p k) :
    ∀ (n : ℕ) (d : Arrays), n ≤ p + 1 → 1 ≤ p → nameOrders (qAndDersNames p) p d0 n = .ok d → ∀ k ∈ d.keys, Named p k := by
  intro n
  induction n with
  | zero => intro d _ _ h; cases h; exact h0
  | succ n ih =>
    intro d hn hp h
    rw [nameOrders] at h
    obtain ⟨d1, h1, h⟩ := Exc.bind_ok h
    obtain ⟨a, -, h⟩ := Exc.bind_ok h
    exact nameBlocks_keys (ih d1 (by omega) hp h1) _ d (by omega) h

theorem nameArrays_keys {p : ℕ} (hp : 1 ≤ p) {d0 d : Arrays} (h0 : ∀ k ∈ d0.keys, Named p k) (h : nameArrays p d0 = .ok d) :
    ∀ k ∈ d.keys, Named p k := by
  unfold nameArrays at h
  obtain ⟨d1, h1, h⟩ := Exc.bind_ok h
  obtain ⟨last, h2, h⟩ := Exc.bind_ok h
  obtain ⟨prev, -, h⟩ := Exc.bind_ok h
  obtain ⟨a, -, h⟩ := Exc.bind_ok h
  cases h
  intro k hk
  rcases mem_keys_set hk with rfl | hk
  · exact Or.inr (Or.inr (Or.inr (Or.inr (getE_ok h2))))
  · exact nameOrders_keys h0 _ d1 le_rfl hp h1 k hk

theorem psDerivs_keys {p : ℕ} {deriv : ℕ → Except PsErr Arr2} {d0 : Arrays} (h0 : ∀ k ∈ d0.keys, Named p k) :
    ∀ (n : ℕ) (d : Arrays), n + 1 ≤ p → psDerivs deriv d0 n = .ok d → ∀ k ∈ d.keys, Named p k := by
  intro n
  induction n with
  | zero => intro d _ h; cases h; exact h0
  | succ n ih =>
    intro d hn h k hk
    rw [psDerivs] at h
    obtain ⟨d1, h1, h⟩ := Exc.bind_ok h
    obtain ⟨a, -, h⟩ := Exc.bind_ok h
    cases h
    rcases mem_keys_set hk with rfl | hk
    · exact Or.inr (Or.inr (Or.inl ⟨n + 2, by omega, rfl⟩))
    · exact ih d1 (by omega) h1 k hk

theorem start_keys {p : ℕ} (hp : 1 ≤ p) (x x_d u t : Arr2) :
    ∀ k ∈ Arrays.keys [("x", x), ("x_d", x_d), ("u", u), ("t", t)], Named p k := by
  intro k hk
  simp only [Arrays.keys, List.map_cons, List.map_nil, List.mem_cons, List.not_mem_nil, or_false] at hk
  rcases hk with rfl | rfl | rfl | rfl
  · exact Or.inr (Or.inr (Or.inl ⟨0, by omega, rfl⟩))
  · exact Or.inr (Or.inr (Or.inl ⟨1, hp, by decide⟩))
  · exact Or.inl rfl
  · exact Or.inr (Or.inl rfl)

/-- The keys of a part of a problem with segments. -/
theorem flat_keys {elib : (d : ℕ) → Interp.Lib d Row} {lib : PsInterp.Lib} {res : Res} {p m n : ℕ}
    {x_interp u_interp : Option String} {given : Option (List ℝ)} {d : Arrays} (hp : 1 ≤ p)
    (hm : res.scheme_mode ≠ "equispaced") (h : flat elib lib res p m x_interp u_interp n given = .ok d) :
    ∀ k ∈ d.keys, Named p k := by
  unfold flat at h
  split at h
  · rw [if_neg (by omega)] at h
    split_ifs at h with h1 h2 h3 h4
    all_goals try (obtain ⟨d0, h0, h⟩ := Exc.bind_ok h)
    · refine nameArrays_keys hp ?_ h
      unfold node at h0
      obtain ⟨qq, -, h0⟩ := Exc.bind_ok h0
      obtain ⟨vv, -, h0⟩ := Exc.bind_ok h0
      obtain ⟨xx, -, h0⟩ := Exc.bind_ok h0
      obtain ⟨o, -, h0⟩ := Exc.bind_ok h0
      obtain ⟨⟨x, x_d⟩, -, h0⟩ := Exc.bind_ok h0
      exact psDerivs_keys (start_keys hp _ _ _ _) _ _ (by omega) h0
    · refine nameArrays_keys hp ?_ h
      unfold bu at h0
      obtain ⟨o, -, h0⟩ := Exc.bind_ok h0
      exact psDerivs_keys (start_keys hp _ _ _ _) _ _ (by omega) h0
    · refine nameArrays_keys hp ?_ h
      unfold td at h0
      obtain ⟨q, -, h0⟩ := Exc.bind_ok h0
      obtain ⟨o, -, h0⟩ := Exc.bind_ok h0
      exact psDerivs_keys (start_keys hp _ _ _ _) _ _ (by omega) h0
    · cases h0
  · cases h

/-! ## Joining the parts -/

/-- The arrays of the parts one after the other; if `drop`, all but the last lose their last entry. -/
def joinAll {A : Type} (drop : Bool) (ss : List (List A)) : List A := if drop then joinSegments ss else ss.flatten

theorem joinSegments_cons {A : Type} (s s' : List A) (ss : List (List A)) :
    joinSegments (s :: s' :: ss) = s.dropLast ++ joinSegments (s' :: ss) := by
  rw [joinSegments]
  simp

theorem joinSegments_map {A B : Type} (f : A → B) (ss : List (List A)) :
    joinSegments (ss.map (List.map f)) = (joinSegments ss).map f := by
  induction ss with
  | nil => rfl
  | cons s ss ih =>
    cases ss with
    | nil => rfl
    | cons s' ss =>
      rw [List.map_cons, List.map_cons, joinSegments_cons, ← List.map_cons, ih, joinSegments_cons, List.map_append,
        List.map_dropLast]

theorem joinAll_map {A B : Type} (drop : Bool) (f : A → B) (ss : List (List A)) :
    joinAll drop (ss.map (List.map f)) = (joinAll drop ss).map f := by
  cases drop
  · simp [joinAll, List.map_flatten]
  · simp [joinAll, joinSegments_map]

theorem mem_joinSegments {A : Type} {ss : List (List A)} {a : A} (h : a ∈ joinSegments ss) : ∃ s ∈ ss, a ∈ s := by
  induction ss with
  | nil => simp [joinSegments] at h
  | cons s ss ih =>
    cases ss with
    | nil => exact ⟨s, by simp, h⟩
    | cons s' ss =>
      rw [joinSegments_cons] at h
      rcases List.mem_append.1 h with h | h
      · exact ⟨s, by simp, List.dropLast_subset _ h⟩
      · obtain ⟨t, h1, h2⟩ := ih h
        exact ⟨t, by simp [h1], h2⟩

theorem mem_joinAll {A : Type} {drop : Bool} {ss : List (List A)} {a : A} (h : a ∈ joinAll drop ss) : ∃ s ∈ ss, a ∈ s := by
  cases drop
  · simpa [joinAll] using h
  · exact mem_joinSegments (by simpa [joinAll] using h)

theorem joinSegments_eq {A : Type} (ss : List (List A)) (z : List A) :
    joinSegments (ss ++ [z]) = (ss.map List.dropLast).flatten ++ z := by
  induction ss with
  | nil => rfl
  | cons s ss ih =>
    rw [List.cons_append, joinSegments, ih, List.map_cons, List.flatten_cons, List.append_assoc]
    simp

theorem joined_rows {drop : Bool} {l : List Arr2} {w : ℕ} (hl : l ≠ []) (hw : ∀ a ∈ l, a.width = w) :
    joined drop l = .ok ⟨w, joinAll drop (l.map Arr2.rows)⟩ := by
  obtain ⟨l', z, rfl⟩ : ∃ l' z, l = l' ++ [z] := ⟨l.dropLast, l.getLast hl, (List.dropLast_append_getLast hl).symm⟩
  have hz : (l' ++ [z]).getLast? = some z := by simp
  unfold joined
  rw [hz]
  dsimp only
  rw [List.dropLast_concat]
  obtain ⟨m, hm⟩ : ∃ m : List Arr2, m = (l'.map fun a => if drop then ⟨a.width, a.rows.dropLast⟩ else a) ++ [z] := ⟨_, rfl⟩
  rw [← hm]
  have hmw : ∀ a ∈ m, a.width = w := by
    intro a ha
    rw [hm] at ha
    rcases List.mem_append.1 ha with ha | ha
    · obtain ⟨b, hb, rfl⟩ := List.mem_map.1 ha
      have := hw b (by simp [hb])
      cases drop <;> simpa using this
    · rw [List.mem_singleton.1 ha]; exact hw z (by simp)
  have hmr : (m.map Arr2.rows).flatten = joinAll drop ((l' ++ [z]).map Arr2.rows) := by
    rw [hm]
    cases drop
    · simp [joinAll]
    · simp only [joinAll, if_true]
      simp only [List.map_append, List.map_cons, List.map_nil, joinSegments_eq, List.map_map, List.flatten_append]
      simp [Function.comp_def]
  cases m with
  | nil => simp at hm
  | cons a rest =>
    unfold vcat
    dsimp only
    have ha := hmw a (by simp)
    rw [if_pos, hmr, ha]
    simp only [List.all_eq_true, decide_eq_true_eq]
    intro b hb
    rw [ha, hmw b (by simp [hb])]

theorem rows_range (l : List Row) : (List.range l.length).map (fun i => rows l i) = l := by
  apply List.ext_getElem
  · simp
  · intro i h1 h2
    simp only [List.getElem_map, List.getElem_range]
    funext c
    simp [rows, h2]

/-- The rows of the joined arrays: which part, and which row of the part. -/
def places (drop : Bool) (S : ℕ) (len : ℕ → ℕ) : List (ℕ × ℕ) :=
  joinAll drop ((List.range S).map fun s => (List.range (len s)).map fun i => (s, i))

theorem places_mem {drop : Bool} {S : ℕ} {len : ℕ → ℕ} {a : ℕ × ℕ} (h : a ∈ places drop S len) : a.1 < S ∧ a.2 < len a.1 := by
  obtain ⟨l, h1, h2⟩ := mem_joinAll h
  obtain ⟨s, hs, rfl⟩ := List.mem_map.1 h1
  obtain ⟨i, hi, rfl⟩ := List.mem_map.1 h2
  exact ⟨List.mem_range.1 hs, List.mem_range.1 hi⟩

theorem joined_holds {drop : Bool} {S w : ℕ} (hS : 1 ≤ S) {len : ℕ → ℕ} {g : ℕ → ℕ → ℕ → ℝ} {a : ℕ → Arr2}
    (h : ∀ s < S, Holds (len s) w (g s) (a s)) :
    ∃ r, joined drop ((List.range S).map a) = .ok r ∧
      Holds (places drop S len).length w
        (fun i c => g ((places drop S len).getD i (0, 0)).1 ((places drop S len).getD i (0, 0)).2 c) r := by
  have e := joined_rows (drop := drop) (l := (List.range S).map a) (w := w) (by
      intro h; have := congrArg List.length h; simp at this; omega) (by
    intro b hb
    obtain ⟨s, hs, rfl⟩ := List.mem_map.1 hb
    exact (h s (List.mem_range.1 hs)).1)
  refine ⟨_, e, rfl, ?_, ?_⟩
  all_goals
    have hr : joinAll drop (((List.range S).map a).map Arr2.rows)
        = (places drop S len).map fun q => fun c => rows (a q.1).rows q.2 c := by
      unfold places
      rw [← joinAll_map]
      congr 1
      rw [List.map_map, List.map_map]
      apply List.map_congr_left
      intro s hs
      simp only [Function.comp, List.map_map]
      have := (h s (List.mem_range.1 hs)).2.1
      rw [← this]
      exact (rows_range _).symm
    dsimp only
    rw [hr]
  · simp
  · intro i hi c hc
    have hm := places_mem (List.getElem_mem hi)
    have := (h _ hm.1).2.2 _ hm.2 c hc
    simp only [List.getD_eq_getElem?_getD, List.getElem?_eq_getElem hi, Option.getD_some]
    rw [← this]
    simp [rows, hi]

/-- The loop over the keys. -/
theorem joinKeys_ok {drop : Bool} {interps : List Arrays} {L : String → List Arr2} {A : String → Arr2} :
    ∀ K : List String, (∀ k ∈ K, interps.mapM (fun d => need (d.get k)) = .ok (L k) ∧ joined drop (L k) = .ok (A k)) →
      ∃ out, joinKeys drop interps K = .ok out ∧ out.arrs = K.map (fun k => (k, A k)) ∧
        out.lists = K.map (fun k => (k ++ "_list", L k)) := by
  intro K
  induction K with
  | nil => intro _; exact ⟨_, rfl, rfl, rfl⟩
  | cons k K ih =>
    intro h
    obtain ⟨out, e1, e2, e3⟩ := ih fun k' hk' => h k' (by simp [hk'])
    obtain ⟨h1, h2⟩ := h k (by simp)
    refine ⟨⟨(k, A k) :: out.arrs, (k ++ "_list", L k) :: out.lists⟩, ?_, by rw [e2]; rfl, by rw [e3]; rfl⟩
    simp only [joinKeys, h1, h2, e1, bind, Except.bind, pure, Except.pure]

theorem append_list_inj {a b : String} (h : a ++ "_list" = b ++ "_list") : a = b := by
  have := congrArg String.toList h
  simp only [String.toList_append] at this
  exact String.toList_inj.1 (List.append_cancel_right this)

theorem list_mapped {K : List String} {arrs : Arrays} {L : String → List Arr2} {k : String} (h : k ∈ K) :
    Interps.list ⟨arrs, K.map fun k => (k ++ "_list", L k)⟩ (k ++ "_list") = some (L k) := by
  unfold Interps.list
  induction K with
  | nil => simp at h
  | cons k' K ih =>
    rw [List.map_cons, List.find?_cons]
    by_cases e : k' = k
    · subst e; simp
    · have : (k' ++ "_list" == k ++ "_list") = false := by simpa using fun h => e (append_list_inj h)
      simp only [this]
      rcases List.mem_cons.1 h with h | h
      · exact absurd h.symm e
      · exact ih h

theorem get_mapped {K : List String} {A : String → Arr2} {k : String} (h : k ∈ K) :
    Arrays.get (K.map fun k => (k, A k)) k = some (A k) := by
  induction K with
  | nil => simp at h
  | cons k' K ih =>
    unfold Arrays.get at ih ⊢
    rw [List.map_cons, List.find?_cons]
    by_cases e : k' = k
    · subst e; simp
    · have : (k' == k) = false := by simpa using e
      simp only [this]
      rcases List.mem_cons.1 h with h | h
      · exact absurd h.symm e
      · exact ih h

/-! ## What is known of a dictionary that was returned -/

theorem nameBlocks_keep {p ii : ℕ} {divs : List Arr2} {d0 : Arrays} {key : String} (hk : ∀ c ∈ key.toList, c ≠ '_')
    (hm : key ∈ ["x", "u", "t", "f"]) :
    ∀ (n : ℕ) (d : Arrays), nameBlocks (qAndDersNames p) ii divs d0 n = .ok d → d.get key = d0.get key := by
  intro n
  induction n with
  | zero => intro d h; cases h; rfl
  | succ n ih =>
    intro d h
    rw [nameBlocks] at h
    obtain ⟨d1, h1, h⟩ := Exc.bind_ok h
    obtain ⟨name, h2, h⟩ := Exc.bind_ok h
    obtain ⟨a, -, h⟩ := Exc.bind_ok h
    cases h
    rw [get_set, if_neg, ih d1 h1]
    intro e
    have hp := names_plain (List.mem_of_getElem? (getE_ok h2))
    rw [← dName_zero key] at e
    obtain ⟨rfl, -⟩ := dName_inj hk hp.1 e
    exact hp.2 hm

theorem nameOrders_keep {p : ℕ} {d0 : Arrays} {key : String} (hk : ∀ c ∈ key.toList, c ≠ '_')
    (hm : key ∈ ["x", "u", "t", "f"]) :
    ∀ (n : ℕ) (d : Arrays), nameOrders (qAndDersNames p) p d0 n = .ok d → d.get key = d0.get key := by
  intro n
  induction n with
  | zero => intro d h; cases h; rfl
  | succ n ih =>
    intro d h
    rw [nameOrders] at h
    obtain ⟨d1, h1, h⟩ := Exc.bind_ok h
    obtain ⟨a, -, h⟩ := Exc.bind_ok h
    rw [nameBlocks_keep hk hm _ _ h, ih d1 h1]

theorem nameArrays_keep {p : ℕ} {d0 d : Arrays} {key : String} (hk : ∀ c ∈ key.toList, c ≠ '_')
    (hm : key ∈ ["x", "u", "t", "f"]) (h : nameArrays p d0 = .ok d) : d.get key = d0.get key := by
  unfold nameArrays at h
  obtain ⟨d1, h1, h⟩ := Exc.bind_ok h
  obtain ⟨last, h2, h⟩ := Exc.bind_ok h
  obtain ⟨prev, -, h⟩ := Exc.bind_ok h
  obtain ⟨a, -, h⟩ := Exc.bind_ok h
  cases h
  rw [get_set, if_neg, nameOrders_keep hk hm _ _ h1]
  rintro rfl
  exact (names_plain (List.mem_of_getElem? (getE_ok h2))).2 hm

theorem psDerivs_keep {deriv : ℕ → Except PsErr Arr2} {d0 : Arrays} {key : String} (hk : ∀ c ∈ key.toList, c ≠ '_') :
    ∀ (n : ℕ) (d : Arrays), psDerivs deriv d0 n = .ok d → d.get key = d0.get key := by
  intro n
  induction n with
  | zero => intro d h; cases h; rfl
  | succ n ih =>
    intro d h
    rw [psDerivs] at h
    obtain ⟨d1, h1, h⟩ := Exc.bind_ok h
    obtain ⟨a, -, h⟩ := Exc.bind_ok h
    cases h
    rw [get_set, if_neg, ih d1 h1]
    intro e
    rw [← dName_zero key] at e
    exact absurd (dName_inj hk x_plain e).2 (by omega)

/-- The instants in the dictionary of a node based problem. -/
theorem flat_node_t {elib : (d : ℕ) → Interp.Lib d Row} {lib : PsInterp.Lib} {res : Res} {p m n : ℕ}
    {x_interp u_interp : Option String} {given : Option (List ℝ)} {d : Arrays} {t0 tf : ℝ}
    (hm : res.scheme_mode = "pseudospectral") (h0 : res.t.head? = some t0) (h1 : res.t.getLast? = some tf)
    (h : flat elib lib res p m x_interp u_interp n given = .ok d) :
    d.get "t" = some (column (instantsOf t0 tf n given)) := by
  unfold flat at h
  rw [h0, h1] at h
  dsimp only at h
  split_ifs at h with h2 h3 h4 h5 h6
  · rw [hm] at h4; exact absurd h4 (by decide)
  · obtain ⟨d0, h0, h⟩ := Exc.bind_ok h
    rw [nameArrays_keep t_plain (by simp) h]
    unfold node at h0
    obtain ⟨qq, -, h0⟩ := Exc.bind_ok h0
    obtain ⟨vv, -, h0⟩ := Exc.bind_ok h0
    obtain ⟨xx, -, h0⟩ := Exc.bind_ok h0
    obtain ⟨o, -, h0⟩ := Exc.bind_ok h0
    obtain ⟨⟨x, x_d⟩, -, h0⟩ := Exc.bind_ok h0
    rw [psDerivs_keep t_plain _ _ h0]
    rfl

theorem joinKeys_get {drop : Bool} {interps : List Arrays} {k : String} :
    ∀ (K : List String) (out : Interps), k ∈ K → joinKeys drop interps K = .ok out →
      ∃ l a, interps.mapM (fun d => need (d.get k)) = .ok l ∧ joined drop l = .ok a ∧ out.arrs.get k = some a := by
  intro K
  induction K with
  | nil => intro out hk; simp at hk
  | cons k' K ih =>
    intro out hk h
    rw [joinKeys] at h
    obtain ⟨l, h1, h⟩ := Exc.bind_ok h
    obtain ⟨a, h2, h⟩ := Exc.bind_ok h
    obtain ⟨rest, h3, h⟩ := Exc.bind_ok h
    cases h
    by_cases e : k = k'
    · subst e
      exact ⟨l, a, h1, h2, by simp [Arrays.get]⟩
    · obtain ⟨l', a', g1, g2, g3⟩ := ih rest (by simpa [e] using hk) h3
      refine ⟨l', a', g1, g2, ?_⟩
      rw [← g3]
      simp [Arrays.get, List.find?_cons, beq_eq_false_iff_ne.2 (Ne.symm e)]

/-- The first row of the joined arrays is the first row of the first array. -/
theorem joined_head {drop : Bool} {a0 : Arr2} {l : List Arr2} {a : Arr2} (h2 : 2 ≤ a0.rows.length)
    (h : joined drop (a0 :: l) = .ok a) : a.rows.head? = a0.rows.head? := by
  obtain ⟨r0, r1, rs, hr⟩ : ∃ r0 r1 rs, a0.rows = r0 :: r1 :: rs := by
    rcases hr : a0.rows with _ | ⟨r0, _ | ⟨r1, rs⟩⟩
    · rw [hr] at h2; simp at h2
    · rw [hr] at h2; simp at h2
    · exact ⟨r0, r1, rs, rfl⟩
  unfold joined at h
  cases l with
  | nil =>
    simp only [List.getLast?_singleton, List.dropLast_singleton, List.map_nil, List.nil_append, vcat, List.all_nil, if_true] at h
    cases h
    simp
  | cons b l =>
    rw [List.getLast?_cons_cons] at h
    obtain ⟨z, hz⟩ : ∃ z, (b :: l).getLast? = some z := ⟨_, List.getLast?_eq_some_getLast (by simp)⟩
    rw [hz] at h
    simp only [List.dropLast_cons₂, List.map_cons, List.cons_append, vcat] at h
    split_ifs at h with h1 h3 h4
    · have h := Except.ok.inj h
      subst h
      simp [hr]
    · have h := Except.ok.inj h
      subst h
      simp [hr]

end Chords.Interpolation
