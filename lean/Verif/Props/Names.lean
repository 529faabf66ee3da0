import Verif.Model.Names
import Verif.Lemmas.Exc

/-! # C51, C52, C95: names of symbols -/

namespace Chords.Props
open Chords.Names

variable [PyChars]
set_option linter.unusedSectionVars false

/-! ## C51: symbols for derivatives -/

/-- Names that the derivatives of other symbols may take: `v_…`, `v1…`, `a_…`, `a1…`, `…_dot` and `q_dot…`. -/
def Reserved (n : Name) : Prop :=
  (∃ c d r, n = c :: d :: r ∧ (c = 'v' ∨ c = 'a') ∧ (d = '_' ∨ PyChars.digit d = true)) ∨
    ['_', 'd', 'o', 't'] <:+ n ∨ ['q', '_', 'd', 'o', 't'] <+: n

/-- The name of the symbol that is differentiated. -/
def baseName : Quantity → Name
  | .sym n => n
  | .dyn n _ => n

private theorem dots_one (r : Name) : ['_', 'd', 'o', 't'] <+: dots 1 ++ r := ⟨r, rfl⟩

private theorem dots_prefix {k k' : ℕ} {r r' : Name} (h : dots k ++ r = dots k' ++ r')
    (hr : ¬['_', 'd', 'o', 't'] <+: r) (hr' : ¬['_', 'd', 'o', 't'] <+: r') : k = k' ∧ r = r' := by
  induction k generalizing k' with
  | zero =>
    cases k' with
    | zero => exact ⟨rfl, h⟩
    | succ k' => exact absurd ⟨dots k' ++ r', by simpa [dots] using h.symm⟩ hr
  | succ k ih =>
    cases k' with
    | zero => exact absurd ⟨dots k ++ r, by simpa [dots] using h⟩ hr'
    | succ k' =>
      have := ih (k' := k') (by simpa [dots] using h)
      exact ⟨by rw [this.1], this.2⟩

private theorem dots_succ (k : ℕ) : dots (k + 1) = dots k ++ ['_', 'd', 'o', 't'] := by
  induction k with
  | zero => rfl
  | succ k ih =>
    change ['_', 'd', 'o', 't'] ++ dots (k + 1) = (['_', 'd', 'o', 't'] ++ dots k) ++ ['_', 'd', 'o', 't']
    rw [ih, List.append_assoc]

private theorem dots_suffix {k k' : ℕ} {n n' : Name} (h : n ++ dots k = n' ++ dots k')
    (hn : ¬['_', 'd', 'o', 't'] <:+ n) (hn' : ¬['_', 'd', 'o', 't'] <:+ n') : k = k' ∧ n = n' := by
  induction k generalizing k' with
  | zero =>
    cases k' with
    | zero => exact ⟨rfl, by simpa [dots] using h⟩
    | succ k' =>
      refine absurd ⟨n' ++ dots k', ?_⟩ hn
      rw [dots_succ, ← List.append_assoc] at h
      simpa [dots] using h.symm
  | succ k ih =>
    cases k' with
    | zero =>
      refine absurd ⟨n ++ dots k, ?_⟩ hn'
      rw [dots_succ, ← List.append_assoc] at h
      simpa [dots] using h
    | succ k' =>
      rw [dots_succ, dots_succ, ← List.append_assoc, ← List.append_assoc] at h
      have := ih (List.append_cancel_right h)
      exact ⟨by rw [this.1], this.2⟩

/-- Names of coordinates. -/
def QName (n : Name) : Prop := ∃ d r, n = 'q' :: d :: r ∧ (d = '_' ∨ PyChars.digit d = true)

theorem isQ_true {n : Name} (h : isQ n = .ok true) : QName n := by
  unfold isQ at h
  split at h
  · rename_i h2
    match n, h2 with
    | c :: d :: r, h2 =>
      simp only [List.take_succ_cons, List.take_zero, List.cons.injEq, and_true] at h2
      exact ⟨d, r, by rw [h2.1], .inl h2.2⟩
  · match n, h with
    | [], h => cases h
    | [c], h =>
      simp only at h
      split at h <;> simp at h
    | c :: d :: r, h =>
      simp only [Except.ok.injEq, Bool.and_eq_true, decide_eq_true_eq] at h
      exact ⟨d, r, by rw [h.1], .inr h.2⟩

theorem isQ_false {n : Name} (h : isQ n = .ok false) : n ≠ [] ∧ ¬QName n := by
  unfold isQ at h
  split at h
  · simp at h
  · rename_i h2
    match n, h, h2 with
    | [], h, _ => cases h
    | [c], h, _ => exact ⟨by simp, by rintro ⟨d, r, h, -⟩; simp at h⟩
    | c :: d :: r, h, h2 =>
      refine ⟨by simp, ?_⟩
      rintro ⟨d', r', h', hd⟩
      simp only [List.cons.injEq] at h'
      obtain ⟨rfl, rfl, rfl⟩ := h'
      rcases hd with rfl | hd
      · simp at h2
      · simp [hd] at h

private theorem isQ_error {n : Name} {e : NErr} (h : isQ n = .error e) : e = .index ∧ (n = [] ∨ n = ['q']) := by
  unfold isQ at h
  split at h
  · cases h
  · match n, h with
    | [], h => exact ⟨by cases h; rfl, .inl rfl⟩
    | [c], h =>
      simp only at h
      split at h
      · rename_i hc
        exact ⟨by cases h; rfl, .inr (by rw [hc])⟩
      · cases h
    | c :: d :: r, h => cases h

private theorem q_not_dots {d : Char} {r : Name} (h : ¬Reserved ('q' :: d :: r)) : ¬['_', 'd', 'o', 't'] <+: d :: r := by
  rintro ⟨t, ht⟩
  refine h (.inr (.inr ⟨t, ?_⟩))
  rw [← ht]
  rfl

/-- The derivatives of coordinates have reserved names. -/
private theorem derivName_q {n : Name} (hq : QName n) (l : ℕ) :
    ∃ c d r, derivName true n l = c :: d :: r ∧ (c = 'v' ∨ c = 'a') ∧ (d = '_' ∨ PyChars.digit d = true) := by
  obtain ⟨d, r, rfl, hd⟩ := hq
  match l with
  | 0 => exact ⟨'v', d, r, by simp [derivName], .inl rfl, hd⟩
  | 1 => exact ⟨'a', d, r, by simp [derivName], .inr rfl, hd⟩
  | l + 2 => exact ⟨'a', '_', _, by simp [derivName, dots]; rfl, .inr rfl, .inl rfl⟩

private theorem derivName_q_inj {n n' : Name} (hq : QName n) (hq' : QName n') (hn : ¬Reserved n) (hn' : ¬Reserved n') {l l' : ℕ}
    (h : derivName true n l = derivName true n' l') : n = n' ∧ l = l' := by
  obtain ⟨d, r, rfl, -⟩ := hq
  obtain ⟨d', r', rfl, -⟩ := hq'
  have e : ∀ (k : ℕ) (d : Char) (r : Name), derivName true ('q' :: d :: r) (k + 1) = 'a' :: (dots k ++ d :: r) := by
    intro k d r
    cases k with
    | zero => simp [derivName, dots]
    | succ k => simp [derivName]
  match l, l' with
  | 0, 0 =>
    simp only [derivName, if_true, List.tail_cons, List.cons.injEq] at h
    exact ⟨by rw [h.2.1, h.2.2], rfl⟩
  | 0, l' + 1 => rw [e] at h; simp [derivName] at h
  | l + 1, 0 => rw [e] at h; simp [derivName] at h
  | l + 1, l' + 1 =>
    rw [e, e, List.cons.injEq] at h
    obtain ⟨h1, h2⟩ := dots_prefix h.2 (q_not_dots hn) (q_not_dots hn')
    exact ⟨by rw [h2], by rw [h1]⟩

/-- A derivative of a coordinate never has the name of a derivative of another symbol. -/
private theorem derivName_mixed {n n' : Name} (hq : QName n) (h0 : n' ≠ []) (hn : ¬Reserved n)
    (hn' : ¬Reserved n') {l l' : ℕ} (h : derivName true n l = derivName false n' l') : False := by
  obtain ⟨c, d, r, hd, hc, hcd⟩ := derivName_q hq l
  rw [hd] at h
  match n', h0 with
  | [c'], _ =>
    simp only [derivName, Bool.false_eq_true, if_false, List.cons_append, List.nil_append, List.cons.injEq] at h
    obtain ⟨d0, r0, rfl, -⟩ := hq
    have hr := q_not_dots hn
    match l with
    | 0 =>
      simp only [derivName, if_true, List.tail_cons, List.cons.injEq] at hd
      rw [← hd.2.1, ← hd.2.2] at h
      exact hr ⟨dots l', h.2.symm⟩
    | l + 1 =>
      have e : derivName true ('q' :: d0 :: r0) (l + 1) = 'a' :: (dots l ++ d0 :: r0) := by
        cases l with
        | zero => simp [derivName, dots]
        | succ k => simp [derivName]
      rw [e, List.cons.injEq] at hd
      rw [← hd.2] at h
      have h2 : dots l ++ d0 :: r0 = dots (l' + 1) ++ [] := by rw [h.2, List.append_nil]
      have := dots_prefix h2 hr (by rintro ⟨t, ht⟩; simp at ht)
      simp at this
  | c' :: d' :: r', _ =>
    simp only [derivName, Bool.false_eq_true, if_false, List.cons_append, List.cons.injEq] at h
    exact hn' (.inl ⟨c', d', r', rfl, h.1 ▸ hc, h.2.1 ▸ hcd⟩)

/-- C51, for names that are not those of derivatives: different quantities get different symbols. -/
theorem C51_partial {x y : Quantity} (hx : ¬Reserved (baseName x)) (hy : ¬Reserved (baseName y)) {s : Name}
    (h : diffToSymb x = .ok s) (h' : diffToSymb y = .ok s) : baseName x = baseName y ∧ level x = level y := by
  -- a plain symbol is as a dynamic symbol without derivatives
  obtain ⟨n, l, rfl, rfl, h⟩ : ∃ n l, n = baseName x ∧ l = level x ∧ diffToSymb (.dyn n l) = .ok s := by
    cases x with
    | sym n => exact ⟨n, 0, rfl, rfl, h⟩
    | dyn n l => exact ⟨n, l, rfl, rfl, h⟩
  obtain ⟨n', l', rfl, rfl, h'⟩ : ∃ n l, n = baseName y ∧ l = level y ∧ diffToSymb (.dyn n l) = .ok s := by
    cases y with
    | sym n => exact ⟨n, 0, rfl, rfl, h'⟩
    | dyn n l => exact ⟨n, l, rfl, rfl, h'⟩
  generalize baseName x = n at *
  generalize baseName y = n' at *
  generalize level x = l at *
  generalize level y = l' at *
  have key : ∀ {n n' : Name} {l' : ℕ}, ¬Reserved n → diffToSymb (.dyn n 0) = .ok s → diffToSymb (.dyn n' (l' + 1)) = .ok s → False := by
    intro n n' l' hn h h'
    simp only [diffToSymb, Except.ok.injEq] at h h'
    subst h
    cases hq : isQ n' with
    | error e => simp [hq, Except.map] at h'
    | ok b =>
      simp only [hq, Except.map, Except.ok.injEq] at h'
      cases b with
      | true =>
        obtain ⟨c, d, r, hd, hc, hcd⟩ := derivName_q (isQ_true hq) l'
        exact hn (.inl ⟨c, d, r, h' ▸ hd, hc, hcd⟩)
      | false =>
        refine hn (.inr (.inl ⟨n' ++ dots l', ?_⟩))
        rw [← h']
        simp [derivName, dots_succ]
  match l, l', h, h' with
  | 0, 0, h, h' =>
    simp only [diffToSymb, Except.ok.injEq] at h h'
    exact ⟨h.trans h'.symm, rfl⟩
  | 0, l' + 1, h, h' => exact (key hx h h').elim
  | l + 1, 0, h, h' => exact (key hy h' h).elim
  | l + 1, l' + 1, h, h' =>
    simp only [diffToSymb] at h h'
    cases hq : isQ n with
    | error e => simp [hq, Except.map] at h
    | ok b =>
      cases hq' : isQ n' with
      | error e => simp [hq', Except.map] at h'
      | ok b' =>
        simp only [hq, hq', Except.map, Except.ok.injEq] at h h'
        have h2 : derivName b n l = derivName b' n' l' := h.trans h'.symm
        cases b <;> cases b'
        · simp only [derivName, Bool.false_eq_true, if_false] at h2
          obtain ⟨h3, h4⟩ := dots_suffix h2 (fun hh => hx (.inr (.inl hh))) (fun hh => hy (.inr (.inl hh)))
          exact ⟨h4, h3⟩
        · exact (derivName_mixed (isQ_true hq') (isQ_false hq).1 hy hx h2.symm).elim
        · exact (derivName_mixed (isQ_true hq) (isQ_false hq').1 hx hy h2).elim
        · obtain ⟨h3, h4⟩ := derivName_q_inj (isQ_true hq) (isQ_true hq') hx hy h2
          exact ⟨h3, by rw [h4]⟩

/-- C51: the conversion fails exactly for the derivatives of a symbol with the name `q`. -/
theorem C51_total (x : Quantity) (h0 : baseName x ≠ []) :
    (∀ e, diffToSymb x = .error e → e = .index ∧ baseName x = ['q'] ∧ 0 < level x) ∧
      (baseName x ≠ ['q'] ∨ level x = 0 → ∃ s, diffToSymb x = .ok s) := by
  match x with
  | .sym n => exact ⟨fun e h => by simp [diffToSymb] at h, fun _ => ⟨n, rfl⟩⟩
  | .dyn n 0 => exact ⟨fun e h => by simp [diffToSymb] at h, fun _ => ⟨n, rfl⟩⟩
  | .dyn n (l + 1) =>
    simp only [baseName] at h0 ⊢
    cases hq : isQ n with
    | ok b => exact ⟨fun e h => by simp [diffToSymb, hq, Except.map] at h, fun _ => ⟨_, by simp only [diffToSymb, hq, Except.map]; rfl⟩⟩
    | error e =>
      obtain ⟨rfl, h | h⟩ := isQ_error hq
      · exact absurd h h0
      · refine ⟨fun e h' => ?_, fun h' => ?_⟩
        · simp only [diffToSymb, hq, Except.map, Except.error.injEq] at h'
          exact ⟨h'.symm, h, by simp [level]⟩
        · rcases h' with h' | h'
          · exact absurd h h'
          · simp [level] at h'

/-- C51 fails: the velocity of `q_1` and a symbol `v_1`, the third derivative of `q_1` and the second one of `q_dot_1`, and the
velocity of `z` and a symbol `z_dot` are merged, and a velocity of `q` raises. -/
theorem C51_refuted :
    (diffToSymb (.dyn ['q', '_', '1'] 1) = diffToSymb (.dyn ['v', '_', '1'] 0) ∧ ∃ s, diffToSymb (.dyn ['q', '_', '1'] 1) = .ok s) ∧
    (diffToSymb (.dyn ['q', '_', '1'] 3) = diffToSymb (.dyn ['q', '_', 'd', 'o', 't', '_', '1'] 2) ∧
      ∃ s, diffToSymb (.dyn ['q', '_', '1'] 3) = .ok s) ∧
    (diffToSymb (.dyn ['z'] 1) = diffToSymb (.dyn ['z', '_', 'd', 'o', 't'] 0) ∧ ∃ s, diffToSymb (.dyn ['z'] 1) = .ok s) ∧
    diffToSymb (.dyn ['q'] 1) = .error .index :=
  ⟨⟨rfl, _, rfl⟩, ⟨rfl, _, rfl⟩, ⟨rfl, _, rfl⟩, rfl⟩

/-- The hypotheses of `C51_partial` hold of `q_1` and `theta`. -/
example : ¬Reserved ['q', '_', '1'] ∧ ¬Reserved ['t', 'h', 'e', 't', 'a'] := by
  constructor <;> rintro (⟨c, d, r, h, hc, -⟩ | ⟨t, ht⟩ | ⟨t, ht⟩)
  · simp only [List.cons.injEq] at h
    rcases hc with rfl | rfl <;> simp at h
  · have := congrArg List.getLast? ht
    simp at this
  · simp at ht
  · simp only [List.cons.injEq] at h
    rcases hc with rfl | rfl <;> simp at h
  · have := congrArg List.getLast? ht
    simp at this
  · simp at ht

/-! ## C52: standard notation -/

/-- A short symbol: one of the five letters and a number. -/
def Short (n : Name) : Prop :=
  ∃ c tail, n = c :: tail ∧ c ∈ ['q', 'v', 'a', 'u', 'x'] ∧ tail ≠ [] ∧ ∀ d ∈ tail, PyChars.numeric d = true

theorem std_short {n : Name} (h : Short n) : ∃ c tail, n = c :: tail ∧ stdName n = c :: '_' :: tail := by
  obtain ⟨c, tail, rfl, hc, h0, hn⟩ := h
  refine ⟨c, tail, rfl, ?_⟩
  have : (!tail.isEmpty && tail.all PyChars.numeric) = true := by
    simp only [Bool.and_eq_true, Bool.not_eq_true', List.isEmpty_eq_false_iff, List.all_eq_true]
    exact ⟨h0, hn⟩
  simp only [stdName, this, if_true]
  simp only [List.mem_cons, List.not_mem_nil, or_false] at hc
  rcases hc with rfl | rfl | rfl | rfl | rfl <;> simp

theorem std_other {n : Name} (h : ¬Short n) : stdName n = n := by
  match n with
  | [] => rfl
  | c :: tail =>
    by_cases ht : (!tail.isEmpty && tail.all PyChars.numeric) = true
    · have hc : c ∉ ['q', 'v', 'a', 'u', 'x'] := by
        intro hc
        simp only [Bool.and_eq_true, Bool.not_eq_true', List.all_eq_true, List.isEmpty_eq_false_iff] at ht
        exact h ⟨c, tail, rfl, hc, ht.1, ht.2⟩
      simp only [List.mem_cons, List.not_mem_nil, or_false, not_or] at hc
      simp [stdName, hc]
    · simp only [stdName, if_neg ht]

theorem long_not_short (c : Char) (tail : Name) : ¬Short (c :: '_' :: tail) := by
  rintro ⟨c', t', h, -, -, hn⟩
  simp only [List.cons.injEq] at h
  have := hn '_' (by rw [← h.2]; simp)
  rw [PyChars.under] at this
  cases this

/-- C52: twice is as once. -/
theorem C52_idempotent (n : Name) : stdName (stdName n) = stdName n := by
  by_cases h : Short n
  · obtain ⟨c, tail, -, h2⟩ := std_short h
    rw [h2]
    exact std_other (long_not_short c tail)
  · rw [std_other h, std_other h]

/-- C52: two symbols are merged exactly when they are the two ways to write a letter and a number. -/
theorem C52_merge {n m : Name} (hne : n ≠ m) : stdName n = stdName m ↔
    ∃ c tail, c ∈ ['q', 'v', 'a', 'u', 'x'] ∧ tail ≠ [] ∧ (∀ d ∈ tail, PyChars.numeric d = true) ∧
      (n = c :: tail ∧ m = c :: '_' :: tail ∨ m = c :: tail ∧ n = c :: '_' :: tail) := by
  constructor
  · intro h
    by_cases hn : Short n <;> by_cases hm : Short m
    · obtain ⟨c, t, h1, h2⟩ := std_short hn
      obtain ⟨c', t', h1', h2'⟩ := std_short hm
      rw [h2, h2'] at h
      simp only [List.cons.injEq, true_and] at h
      exact absurd (by rw [h1, h1', h.1, h.2]) hne
    · obtain ⟨c, t, h1, h2⟩ := std_short hn
      rw [h2, std_other hm] at h
      obtain ⟨c', t', h1', hc, h0, hnum⟩ := hn
      rw [h1] at h1'
      simp only [List.cons.injEq] at h1'
      obtain ⟨rfl, rfl⟩ := h1'
      exact ⟨c, t, hc, h0, hnum, .inl ⟨h1, h.symm⟩⟩
    · obtain ⟨c, t, h1, h2⟩ := std_short hm
      rw [h2, std_other hn] at h
      obtain ⟨c', t', h1', hc, h0, hnum⟩ := hm
      rw [h1] at h1'
      simp only [List.cons.injEq] at h1'
      obtain ⟨rfl, rfl⟩ := h1'
      exact ⟨c, t, hc, h0, hnum, .inr ⟨h1, h⟩⟩
    · rw [std_other hn, std_other hm] at h
      exact absurd h hne
  · rintro ⟨c, tail, hc, h0, hnum, ⟨rfl, rfl⟩ | ⟨rfl, rfl⟩⟩
    · obtain ⟨c', t', h1, h2⟩ := std_short ⟨c, tail, rfl, hc, h0, hnum⟩
      simp only [List.cons.injEq] at h1
      rw [h2, std_other (long_not_short c tail), ← h1.1, ← h1.2]
    · obtain ⟨c', t', h1, h2⟩ := std_short ⟨c, tail, rfl, hc, h0, hnum⟩
      simp only [List.cons.injEq] at h1
      rw [h2, std_other (long_not_short c tail), ← h1.1, ← h1.2]

/-- C52 fails: `q1` and `q_1` are merged, so an expression with both gets another value. -/
theorem C52_refuted : ∃ n m : Name, n ≠ m ∧ stdName n = stdName m ∧
    ∃ σ, (standardNotation [n, m] (.add (.atom (.sym n)) (.mul (.num (-1)) (.atom (.sym m))))).eval σ = 0 := by
  have h1 : PyChars.numeric '1' = true := PyChars.sub _ (PyChars.ascii '1' (by decide))
  have hs : Short ['q', '1'] := ⟨'q', ['1'], rfl, by simp, by simp, by simpa using h1⟩
  have hl : stdName ['q', '_', '1'] = ['q', '_', '1'] := std_other (long_not_short 'q' ['1'])
  have e : stdName ['q', '1'] = ['q', '_', '1'] := by
    obtain ⟨c, t, h2, h3⟩ := std_short hs
    simp only [List.cons.injEq] at h2
    rw [h3, ← h2.1, ← h2.2]
  refine ⟨['q', '1'], ['q', '_', '1'], by simp, by rw [e, hl], fun _ => 0, ?_⟩
  simp [standardNotation, Expr.subsList, e, hl, Expr.subs, subsAtom, Expr.eval]

/-- The symbols of the derivatives of a symbol that is not short are not short. -/
theorem deriv_not_short {n s : Name} {l : ℕ} (hn : ¬Short n) (h : diffToSymb (.dyn n l) = .ok s) : ¬Short s := by
  have hu : ∀ {c : Char} {t : Name}, '_' ∈ t → ¬Short (c :: t) := by
    rintro c t ht ⟨c', t', h, -, -, hnum⟩
    simp only [List.cons.injEq] at h
    have := hnum '_' (h.2 ▸ ht)
    rw [PyChars.under] at this
    cases this
  match l with
  | 0 =>
    simp only [diffToSymb, Except.ok.injEq] at h
    exact h ▸ hn
  | l + 1 =>
    cases hq : isQ n with
    | error e => simp [diffToSymb, hq, Except.map] at h
    | ok b =>
      simp only [diffToSymb, hq, Except.map, Except.ok.injEq] at h
      subst h
      cases b with
      | true =>
        obtain ⟨d, r, rfl, -⟩ := isQ_true hq
        have key : ∀ c : Char, ¬Short (c :: d :: r) := by
          rintro c ⟨c', t', h, -, h0, hnum⟩
          simp only [List.cons.injEq] at h
          exact hn ⟨'q', d :: r, rfl, by simp, by simp, by rw [h.2]; exact hnum⟩
        match l with
        | 0 => simpa [derivName] using key 'v'
        | 1 => simpa [derivName] using key 'a'
        | l + 2 =>
          simp only [derivName, if_true, Nat.add_eq_zero_iff, OfNat.ofNat_ne_zero, and_false, if_false, Nat.reduceEqDiff]
          exact hu (by simp [dots])
      | false =>
        obtain ⟨h0, -⟩ := isQ_false hq
        match n, h0 with
        | c :: t, _ =>
          simp only [derivName, Bool.false_eq_true, if_false, List.cons_append]
          exact hu (by simp [dots])

/-! ## C95: values of renamed expressions -/

omit [PyChars] in
private theorem subsList_num (l : List (Quantity × Name)) (c : ℝ) : (Expr.num c).subsList l = .num c := by
  induction l with
  | nil => rfl
  | cons p l ih => exact ih

omit [PyChars] in
private theorem subsList_add (l : List (Quantity × Name)) (e f : Expr) :
    (Expr.add e f).subsList l = .add (e.subsList l) (f.subsList l) := by
  induction l generalizing e f with
  | nil => rfl
  | cons p l ih => exact ih _ _

omit [PyChars] in
private theorem subsList_mul (l : List (Quantity × Name)) (e f : Expr) :
    (Expr.mul e f).subsList l = .mul (e.subsList l) (f.subsList l) := by
  induction l generalizing e f with
  | nil => rfl
  | cons p l ih => exact ih _ _

omit [PyChars] in
private theorem subsList_fn (l : List (Quantity × Name)) (g : ℝ → ℝ) (e : Expr) :
    (Expr.fn g e).subsList l = .fn g (e.subsList l) := by
  induction l generalizing e with
  | nil => rfl
  | cons p l ih => exact ih _

/-- The expression with other quantities in its places. -/
def mapAtoms (g : Quantity → Quantity) : Expr → Expr
  | .num c => .num c
  | .atom q => .atom (g q)
  | .add e f => .add (mapAtoms g e) (mapAtoms g f)
  | .mul e f => .mul (mapAtoms g e) (mapAtoms g f)
  | .fn f e => .fn f (mapAtoms g e)

omit [PyChars] in
theorem eval_mapAtoms (g : Quantity → Quantity) (σ : Quantity → ℝ) (e : Expr) : (mapAtoms g e).eval σ = e.eval fun q => σ (g q) := by
  induction e with
  | num c => rfl
  | atom q => rfl
  | add e f he hf => rw [mapAtoms, Expr.eval, Expr.eval, he, hf]
  | mul e f he hf => rw [mapAtoms, Expr.eval, Expr.eval, he, hf]
  | fn g e he => rw [mapAtoms, Expr.eval, Expr.eval, he]

omit [PyChars] in
theorem atoms_mapAtoms (g : Quantity → Quantity) (e : Expr) : (mapAtoms g e).atoms = e.atoms.map g := by
  induction e with
  | num c => rfl
  | atom q => rfl
  | add e f he hf => rw [mapAtoms, Expr.atoms, Expr.atoms, he, hf, List.map_append]
  | mul e f he hf => rw [mapAtoms, Expr.atoms, Expr.atoms, he, hf, List.map_append]
  | fn g e he => rw [mapAtoms, Expr.atoms, Expr.atoms, he]

omit [PyChars] in
theorem eval_congr {σ τ : Quantity → ℝ} (e : Expr) (h : ∀ q ∈ e.atoms, σ q = τ q) : e.eval σ = e.eval τ := by
  induction e with
  | num c => rfl
  | atom q => exact h q (by simp [Expr.atoms])
  | add e f he hf =>
    rw [Expr.eval, Expr.eval, he fun q hq => h q (by simp [Expr.atoms, hq]), hf fun q hq => h q (by simp [Expr.atoms, hq])]
  | mul e f he hf =>
    rw [Expr.eval, Expr.eval, he fun q hq => h q (by simp [Expr.atoms, hq]), hf fun q hq => h q (by simp [Expr.atoms, hq])]
  | fn g e he => rw [Expr.eval, Expr.eval, he fun q hq => h q (by simpa [Expr.atoms] using hq)]

omit [PyChars] in
theorem map_subsList {l : List (Quantity × Name)} {g : Quantity → Quantity} (e : Expr)
    (h : ∀ q ∈ e.atoms, (Expr.atom q).subsList l = .atom (g q)) : e.subsList l = mapAtoms g e := by
  induction e with
  | num c => rw [subsList_num]; rfl
  | atom q => exact h q (by simp [Expr.atoms])
  | add e f he hf =>
    rw [subsList_add, mapAtoms, he fun q hq => h q (by simp [Expr.atoms, hq]), hf fun q hq => h q (by simp [Expr.atoms, hq])]
  | mul e f he hf =>
    rw [subsList_mul, mapAtoms, he fun q hq => h q (by simp [Expr.atoms, hq]), hf fun q hq => h q (by simp [Expr.atoms, hq])]
  | fn g e he => rw [subsList_fn, mapAtoms, he fun q hq => h q (by simpa [Expr.atoms] using hq)]

omit [PyChars] in
theorem subs_sym (l : List (Quantity × Name)) (hl : ∀ p ∈ l, ∃ n k, p.1 = .dyn n k) (m : Name) :
    (Expr.atom (.sym m)).subsList l = .atom (.sym m) := by
  induction l with
  | nil => rfl
  | cons p l ih =>
    obtain ⟨n, k, hp⟩ := hl p (by simp)
    have : (Expr.atom (.sym m)).subs p.1 p.2 = .atom (.sym m) := by simp [Expr.subs, subsAtom, hp]
    rw [Expr.subsList, List.foldl_cons, this]
    exact ih fun p hp => hl p (by simp [hp])

omit [PyChars] in
/-- With the replacements in decreasing order of derivatives, each quantity is replaced by its own symbol. -/
theorem subs_dyn {l : List (Quantity × Name)} (hl : ∀ p ∈ l, ∃ n k, p.1 = .dyn n k)
    (hs : l.Pairwise fun a b => level b.1 ≤ level a.1) (hf : ∀ p ∈ l, ∀ p' ∈ l, p.1 = p'.1 → p.2 = p'.2) {n : Name} {k : ℕ} {s : Name}
    (h : (Quantity.dyn n k, s) ∈ l) : (Expr.atom (.dyn n k)).subsList l = .atom (.sym s) := by
  induction l with
  | nil => simp at h
  | cons p l ih =>
    rw [Expr.subsList, List.foldl_cons]
    by_cases hp : p.1 = .dyn n k
    · have e : p.2 = s := hf p (by simp) _ h hp
      have : (Expr.atom (.dyn n k)).subs p.1 p.2 = .atom (.sym s) := by simp [Expr.subs, subsAtom, hp, e]
      rw [this]
      exact subs_sym l (fun p hp => hl p (by simp [hp])) s
    · have hm : (Quantity.dyn n k, s) ∈ l := by
        rcases List.mem_cons.1 h with h | h
        · exact absurd (by rw [← h]) hp
        · exact h
      obtain ⟨n', k', hp'⟩ := hl p (by simp)
      have hk : ¬k' < k := by
        have := (List.pairwise_cons.1 hs).1 _ hm
        rw [hp'] at this
        simp only [level] at this
        omega
      have : (Expr.atom (.dyn n k)).subs p.1 p.2 = .atom (.dyn n k) := by
        have hne : Quantity.dyn n k ≠ .dyn n' k' := fun h => hp (hp'.trans h.symm)
        simp only [Expr.subs, hp', subsAtom, if_neg hne, if_neg fun (h : n = n' ∧ k' < k) => hk h.2]
      rw [this]
      exact ih (fun p hp => hl p (by simp [hp])) (List.pairwise_cons.1 hs).2
        (fun p hp p' hp' => hf p (by simp [hp]) p' (by simp [hp'])) hm

private theorem pairs_mapM {F : Quantity → Except NErr (Quantity × Name)} (hF : ∀ q, F q = (diffToSymb q).map fun n => (q, n))
    {L : List Quantity} {l : List (Quantity × Name)} (hm : L.mapM F = .ok l) :
    l.map Prod.fst = L ∧ ∀ p ∈ l, diffToSymb p.1 = .ok p.2 := by
  induction L generalizing l with
  | nil =>
    rw [List.mapM_nil] at hm
    cases hm
    simp
  | cons q L ih =>
    rw [List.mapM_cons] at hm
    cases hq : diffToSymb q with
    | error e => simp [hF, hq, Except.map, bind, Except.bind] at hm
    | ok s =>
      cases hL : L.mapM F with
      | error e => simp [hF, hq, hL, Except.map, bind, Except.bind] at hm
      | ok l' =>
        simp only [hF q, hq, hL, Except.map, bind, Except.bind, pure, Except.pure, Except.ok.injEq] at hm
        subst hm
        obtain ⟨h1, h2⟩ := ih hL
        refine ⟨by simp [h1], fun p hp => ?_⟩
        rcases List.mem_cons.1 hp with rfl | hp
        · exact hq
        · exact h2 p hp

/-- The symbol of a quantity. -/
def symbolOf (q : Quantity) : Quantity := match diffToSymb q with
  | .ok s => .sym s
  | .error _ => q

theorem diffToSymbExpr_eq {found : List Quantity} {e e' : Expr} (hd : ∀ q ∈ found, ∃ n k, q = .dyn n k)
    (hall : ∀ n k, .dyn n k ∈ e.atoms → .dyn n k ∈ found) (h : diffToSymbExpr found e = .ok e') :
    e' = mapAtoms symbolOf e ∧ ∀ q ∈ e.atoms, ∃ s, diffToSymb q = .ok s := by
  unfold diffToSymbExpr at h
  cases hm : ((sortedDyn found).mapM fun q => (diffToSymb q).map fun n => (q, n)) with
  | error _ =>
    rw [hm] at h
    cases h
  | ok l =>
    rw [hm] at h
    obtain rfl : e.subsList l = e' := by
      cases h
      rfl
    clear h
    -- the pairs of the list
    obtain ⟨hlen, hget⟩ := pairs_mapM (fun _ => rfl) hm
    have hmem : ∀ q, q ∈ sortedDyn found ↔ q ∈ found := fun q => List.mem_insertionSort _
    have hdl : ∀ p ∈ l, ∃ n k, p.1 = Quantity.dyn n k := fun p hp =>
      hd p.1 ((hmem _).1 (hlen ▸ List.mem_map_of_mem hp))
    have hsort : l.Pairwise fun a b => level b.1 ≤ level a.1 := by
      have : (sortedDyn found).Pairwise fun a b => level b ≤ level a := by
        have : Std.Total (fun a b : Quantity => level b ≤ level a) := ⟨fun a b => Nat.le_total _ _⟩
        have : IsTrans Quantity (fun a b : Quantity => level b ≤ level a) := ⟨fun a b c h h' => Nat.le_trans h' h⟩
        exact List.pairwise_insertionSort _ found
      rw [← hlen, List.pairwise_map] at this
      exact this
    have hfun : ∀ p ∈ l, ∀ p' ∈ l, p.1 = p'.1 → p.2 = p'.2 := by
      intro p hp p' hp' he
      have h1 := hget p hp
      rw [he, hget p' hp'] at h1
      exact (Except.ok.inj h1).symm
    refine ⟨map_subsList e fun q hq => ?_, fun q hq => ?_⟩
    rotate_left
    · cases q with
      | sym m => exact ⟨m, rfl⟩
      | dyn n k =>
        obtain ⟨p, hp, hp1⟩ := List.mem_map.1 (hlen ▸ (hmem _).2 (hall n k hq) : Quantity.dyn n k ∈ l.map Prod.fst)
        exact ⟨_, hp1 ▸ hget p hp⟩
    cases q with
    | sym m =>
      rw [subs_sym l hdl]
      rfl
    | dyn n k =>
      obtain ⟨p, hp, hp1⟩ := List.mem_map.1 (hlen ▸ (hmem _).2 (hall n k hq) : Quantity.dyn n k ∈ l.map Prod.fst)
      have : (Quantity.dyn n k, p.2) ∈ l := by rw [← hp1]; exact hp
      rw [subs_dyn hdl hsort hfun this]
      have h2 := hget p hp
      rw [hp1] at h2
      rw [symbolOf, h2]

/-- C95: in whatever order the dynamic symbols are found, the renamed expression at some values of the symbols is the expression where each
dynamic symbol and each derivative has the value of its symbol. -/
theorem C95_symbols {found : List Quantity} {e e' : Expr} (hd : ∀ q ∈ found, ∃ n k, q = .dyn n k)
    (hall : ∀ n k, .dyn n k ∈ e.atoms → .dyn n k ∈ found) (h : diffToSymbExpr found e = .ok e') (σ : Quantity → ℝ) :
    e'.eval σ = e.eval fun q => match diffToSymb q with
      | .ok s => σ (.sym s)
      | .error _ => 0 := by
  obtain ⟨rfl, hok⟩ := diffToSymbExpr_eq hd hall h
  rw [eval_mapAtoms]
  refine eval_congr e fun q hq => ?_
  obtain ⟨s, hs⟩ := hok q hq
  simp only [symbolOf, hs]

/-- The standard symbol of a symbol. -/
def standardOf (q : Quantity) : Quantity := match q with
  | .sym n => .sym (stdName n)
  | .dyn n k => .dyn n k

theorem standardNotation_eq {found : List Name} {e : Expr} (hall : ∀ n, .sym n ∈ e.atoms → n ∈ found) :
    standardNotation found e = mapAtoms standardOf e := by
  unfold standardNotation
  refine map_subsList e fun q hq => ?_
  have fixed : ∀ (L : List Name) (m : Name), stdName m = m →
      (Expr.atom (.sym m)).subsList ((L.filter fun n => stdName n ≠ n).map fun n => (Quantity.sym n, stdName n)) = .atom (.sym m) := by
    intro L m hm
    induction L with
    | nil => rfl
    | cons a L ih =>
      by_cases ha : stdName a = a
      · simpa [List.filter_cons, ha] using ih
      · have : (Expr.atom (.sym m)).subs (.sym a) (stdName a) = .atom (.sym m) := by
          have hne : m ≠ a := by rintro rfl; exact ha hm
          simp [Expr.subs, subsAtom, hne]
        simp only [List.filter_cons, ne_eq, ha, not_false_eq_true, decide_true, if_true, List.map_cons, Expr.subsList, List.foldl_cons,
          this]
        simpa [Expr.subsList] using ih
  have dynfixed : ∀ (L : List Name) (n : Name) (k : ℕ),
      (Expr.atom (.dyn n k)).subsList (L.map fun n => (Quantity.sym n, stdName n)) = .atom (.dyn n k) := by
    intro L n k
    induction L with
    | nil => rfl
    | cons a L ih => simpa [Expr.subsList, Expr.subs, subsAtom] using ih
  cases q with
  | dyn n k => rw [dynfixed]; rfl
  | sym m =>
    by_cases hm : stdName m = m
    · rw [fixed _ _ hm]
      simp only [standardOf, hm]
    · have : (Expr.atom (.sym m)).subsList ((found.filter fun n => stdName n ≠ n).map fun n => (Quantity.sym n, stdName n)) =
          .atom (.sym (stdName m)) := by
        have hf := hall m hq
        clear hall
        induction found with
        | nil => simp at hf
        | cons a L ih =>
          by_cases ha : stdName a = a
          · have hL : m ∈ L := by
              rcases List.mem_cons.1 hf with rfl | h
              · exact absurd ha hm
              · exact h
            simpa [List.filter_cons, ha] using ih hL
          · simp only [List.filter_cons, ne_eq, ha, not_false_eq_true, decide_true, if_true, List.map_cons, Expr.subsList, List.foldl_cons]
            by_cases hma : m = a
            · subst hma
              have : (Expr.atom (.sym m)).subs (.sym m) (stdName m) = .atom (.sym (stdName m)) := by simp [Expr.subs, subsAtom]
              rw [this]
              exact fixed L _ (C52_idempotent m)
            · have : (Expr.atom (.sym m)).subs (.sym a) (stdName a) = .atom (.sym m) := by simp [Expr.subs, subsAtom, hma]
              rw [this]
              rcases List.mem_cons.1 hf with h | h
              · exact absurd h hma
              · simpa [Expr.subsList] using ih h
      rw [this]
      rfl

/-- C95: whatever the order in which symbols are found, the standard notation has the value of the expression where each symbol has the value of
its standard name. -/
theorem C95_standard {found : List Name} {e : Expr} (hall : ∀ n, .sym n ∈ e.atoms → n ∈ found) (σ : Quantity → ℝ) :
    (standardNotation found e).eval σ = e.eval fun q => match q with
      | .sym n => σ (.sym (stdName n))
      | .dyn n k => σ (.dyn n k) := by
  rw [standardNotation_eq hall, eval_mapAtoms]
  refine eval_congr e fun q _ => ?_
  cases q <;> rfl

/-- The order matters: replacing the coordinate before its velocity turns the velocity into zero. -/
example (n : Name) (s s' : Name) : (Expr.atom (.dyn n 1)).subsList [(.dyn n 0, s), (.dyn n 1, s')] = .num 0 := by
  simp [Expr.subsList, Expr.subs, subsAtom]

/-- The hypotheses of `C95_symbols` hold of the velocity of `q_1` times the position, found in any order. -/
example : ∃ e', diffToSymbExpr [.dyn ['q', '_', '1'] 0, .dyn ['q', '_', '1'] 1]
    (.mul (.atom (.dyn ['q', '_', '1'] 1)) (.atom (.dyn ['q', '_', '1'] 0))) = .ok e' ∧
    e' = .mul (.atom (.sym ['v', '_', '1'])) (.atom (.sym ['q', '_', '1'])) :=
  ⟨_, rfl, rfl⟩

end Chords.Props
