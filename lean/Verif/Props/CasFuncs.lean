import Verif.Model.CasFuncs
import Verif.Props.Names
import Verif.Props.Args
import Verif.Lemmas.Exc
import Mathlib.Analysis.SpecialFunctions.Trigonometric.Basic

/-! # Symbolic dynamics as numeric functions (C128-C131) -/

namespace Chords.Props
open Names CasFuncs

variable [PyChars]

/-! ### Renaming -/

/-- The symbol that replaces a quantity. -/
def renamed (q : Quantity) : Quantity := match rename q with
  | .ok s => .sym s
  | .error _ => q

/-- Quantities whose derivatives have names: all but those of a symbol `q` without number. -/
def Named (e : Expr) : Prop := ∀ q ∈ e.atoms, ∃ s, rename q = .ok s

theorem rename_ok {q : Quantity} : (∃ s, rename q = .ok s) ↔ ∃ s, diffToSymb q = .ok s := by
  unfold rename
  cases diffToSymb q <;> simp [Except.map]

theorem diffToSymbExpr_ok {found : List Quantity} {e : Expr} (h : ∀ q ∈ found, ∃ s, diffToSymb q = .ok s) :
    ∃ e', diffToSymbExpr found e = .ok e' := by
  have : ∀ q ∈ sortedDyn found, ((diffToSymb q).map fun n => (q, n)) =
      .ok (q, match diffToSymb q with | .ok s => s | .error _ => []) := by
    intro q hq
    obtain ⟨s, hs⟩ := h q ((List.mem_insertionSort _).1 hq)
    simp only [hs, Except.map]
  exact ⟨_, by unfold diffToSymbExpr; rw [Exc.mapM_eq this]; rfl⟩

omit [PyChars] in
theorem mapAtoms_comp (f g : Quantity → Quantity) (e : Expr) : mapAtoms f (mapAtoms g e) = mapAtoms (fun q => f (g q)) e := by
  induction e with
  | num c => rfl
  | atom q => rfl
  | add e f he hf => simp only [mapAtoms, he, hf]
  | mul e f he hf => simp only [mapAtoms, he, hf]
  | fn g e he => simp only [mapAtoms, he]

omit [PyChars] in
theorem mapAtoms_congr {f g : Quantity → Quantity} (e : Expr) (h : ∀ q ∈ e.atoms, f q = g q) : mapAtoms f e = mapAtoms g e := by
  induction e with
  | num c => rfl
  | atom q => simp only [mapAtoms, h q (by simp [Expr.atoms])]
  | add e f he hf =>
    simp only [mapAtoms, he fun q hq => h q (by simp [Expr.atoms, hq]), hf fun q hq => h q (by simp [Expr.atoms, hq])]
  | mul e f he hf =>
    simp only [mapAtoms, he fun q hq => h q (by simp [Expr.atoms, hq]), hf fun q hq => h q (by simp [Expr.atoms, hq])]
  | fn g e he => simp only [mapAtoms, he fun q hq => h q (by simpa [Expr.atoms] using hq)]

theorem renameExpr_eq (o : SetOrder) {e : Expr} (h : Named e) : renameExpr o e = .ok (mapAtoms renamed e) := by
  obtain ⟨e', he⟩ := diffToSymbExpr_ok (found := o.dyn e) (e := e) fun q hq => rename_ok.1 (h q ((o.dyn_mem e q).1 hq).1)
  have := (diffToSymbExpr_eq (fun q hq => ((o.dyn_mem e q).1 hq).2) (fun n k hq => (o.dyn_mem e _).2 ⟨hq, n, k, rfl⟩) he).1
  simp only [renameExpr, he, liftN, bind, Except.bind, pure, Except.pure]
  rw [standardNotation_eq fun n hn => (o.sym_mem _ _).2 hn, this, mapAtoms_comp]
  refine congrArg Except.ok (mapAtoms_congr e fun q hq => ?_)
  obtain ⟨s, hs⟩ := rename_ok.1 (h q hq)
  simp only [symbolOf, renamed, rename, hs, Except.map, standardOf]

theorem rename_again {q : Quantity} {s : Name} (h : rename q = .ok s) : rename (.sym s) = .ok s := by
  unfold rename at h ⊢
  cases hq : diffToSymb q with
  | error e => simp [hq, Except.map] at h
  | ok t =>
    simp only [hq, Except.map, Except.ok.injEq] at h
    simp only [diffToSymb, Except.map, ← h, C52_idempotent]

/-- The symbols of a renamed expression are those of its quantities. -/
theorem renamed_atoms {e : Expr} (h : Named e) {q : Quantity} (hq : q ∈ (mapAtoms renamed e).atoms) :
    ∃ s, q = .sym s ∧ rename (.sym s) = .ok s ∧ ∃ q' ∈ e.atoms, rename q' = .ok s := by
  rw [atoms_mapAtoms] at hq
  obtain ⟨q', h1, rfl⟩ := List.mem_map.1 hq
  obtain ⟨s, hs⟩ := h q' h1
  exact ⟨s, by simp only [renamed, hs], rename_again hs, q', h1, hs⟩

theorem named_again {e : Expr} (h : Named e) : Named (mapAtoms renamed e) := by
  intro q hq
  obtain ⟨s, rfl, hs, -⟩ := renamed_atoms h hq
  exact ⟨s, hs⟩

theorem renameExpr_again (o : SetOrder) {e : Expr} (h : Named e) :
    renameExpr o (mapAtoms renamed e) = .ok (mapAtoms renamed e) := by
  rw [renameExpr_eq o (named_again h)]
  congr 1
  rw [mapAtoms_comp]
  refine mapAtoms_congr e fun q hq => ?_
  obtain ⟨s, hs⟩ := h q hq
  simp only [renamed, hs, rename_again hs]

theorem renameAll_eq (o : SetOrder) {es : List Expr} (h : ∀ e ∈ es, Named e) :
    es.mapM (renameExpr o) = .ok (es.map (mapAtoms renamed)) := Exc.mapM_eq fun e he => renameExpr_eq o (h e he)

theorem findArgs_eq (o : SetOrder) {es : List Expr} (h : ∀ e ∈ es, Named e) (q : QVars) (u : UVars) (sl sa : Bool) :
    findArgs o es q u sl sa = liftN (findArguments (es.map fun e => o.sym (mapAtoms renamed e)) q u sl sa) := by
  simp only [findArgs, renameAll_eq o h, bind, Except.bind, List.map_map]
  rfl

theorem findArgs_again (o : SetOrder) {es : List Expr} (h : ∀ e ∈ es, Named e) (q : QVars) (u : UVars) (sl sa : Bool) :
    findArgs o (es.map (mapAtoms renamed)) q u sl sa = findArgs o es q u sl sa := by
  rw [findArgs_eq o h]
  have : (es.map (mapAtoms renamed)).mapM (renameExpr o) = .ok ((es.map (mapAtoms renamed)).map id) := by
    refine Exc.mapM_eq fun e he => ?_
    obtain ⟨e', h1, rfl⟩ := List.mem_map.1 he
    exact renameExpr_again o (h e' h1)
  simp only [findArgs, this, bind, Except.bind, List.map_map]
  rfl

/-! ### Values -/

/-- Each quantity has the value of its symbol. -/
def Values (σ : Quantity → ℝ) (ρ : Name → ℝ) : Prop := ∀ q s, rename q = .ok s → σ q = ρ s

omit [PyChars] in
theorem idxOf_getD {vars : List Name} (ρ : Name → ℝ) {n : Name} (h : n ∈ vars) :
    (vars.map ρ).getD (vars.idxOf n) 0 = ρ n := by
  have hi := List.idxOf_lt_length_iff.2 h
  simp [List.getD_eq_getElem?_getD, hi]

theorem assemble_eq {funcs : List Expr} {groups : List (List Name)} (hn : groups.flatten.Nodup)
    (ha : ∀ e ∈ funcs, ∀ q ∈ e.atoms, ∃ n ∈ groups.flatten, q = .sym n) :
    ∃ F, assemble funcs groups = .ok F ∧ F.sizes = groups.map List.length ∧ ∀ (ρ : Name → ℝ) (σ : Quantity → ℝ),
      (∀ n, σ (.sym n) = ρ n) → F.run (groups.map fun g => g.map ρ) = funcs.map fun e => e.eval σ := by
  have h : ∀ e ∈ funcs, sympy2casadi e groups.flatten = .ok fun vals => e.eval fun q => match q with
      | .sym n => vals.getD (groups.flatten.idxOf n) 0
      | .dyn _ _ => 0 := by
    intro e he
    unfold sympy2casadi
    rw [if_neg (not_not.2 hn), if_neg]
    · rfl
    · rintro ⟨q, hq, hv⟩
      obtain ⟨n, h1, h2⟩ := ha e he q hq
      exact hv n h1 h2
  refine ⟨_, by simp only [assemble, Exc.mapM_eq h, bind, Except.bind, pure, Except.pure]; rfl, rfl, fun ρ σ hσ => ?_⟩
  simp only [List.map_map]
  refine List.map_congr_left fun e he => ?_
  simp only [Function.comp]
  refine eval_congr e fun q hq => ?_
  obtain ⟨n, h1, rfl⟩ := ha e he q hq
  have := idxOf_getD ρ h1
  rw [List.map_flatten] at this
  rw [hσ]
  exact this

theorem eval_renamed {e : Expr} (h : Named e) {σ : Quantity → ℝ} {ρ : Name → ℝ} (hv : Values σ ρ) :
    ((mapAtoms renamed e).eval fun q => match q with | .sym n => ρ n | .dyn _ _ => 0) = e.eval σ := by
  rw [eval_mapAtoms]
  refine eval_congr e fun q hq => ?_
  obtain ⟨s, hs⟩ := h q hq
  simp only [renamed, hs, hv q s hs]

/-- The names of the coordinates. -/
def qNames : QVars → List Name
  | .int n => Names.range 'q' n
  | .list l => l
  | .other => []

theorem plain_indexed {c : Char} (hc : c = 'q' ∨ c = 'x') (k : ℕ) : Plain (indexed c k) := by
  have hne := Nat.toDigits_ne_nil (b := 10) (n := k)
  have hlast : ∀ d ∈ Nat.toDigits 10 k, d.isDigit = true := fun d hd => Nat.isDigit_of_mem_toDigits (by omega) (by omega) hd
  refine ⟨by simp [indexed], by simp [indexed], ?_, long_not_short _ _, ?_⟩
  · rintro (⟨c', d, r, h, hc', -⟩ | ⟨t, ht⟩ | ⟨t, ht⟩)
    · simp only [indexed, List.cons.injEq] at h
      rcases hc with rfl | rfl <;> rcases hc' with rfl | rfl <;> simp at h
    · have h1 := congrArg List.getLast? ht
      have h2 : (indexed c k).getLast? = (Nat.toDigits 10 k).getLast? := by
        cases e : Nat.toDigits 10 k with
        | nil => exact absurd e hne
        | cons a l => simp [indexed, e, List.getLast?_cons_cons]
      rw [h2, List.getLast?_append] at h1
      simp only [List.getLast?_cons_cons, List.getLast?_singleton, Option.some_or] at h1
      have := hlast _ (List.mem_of_getLast? h1.symm)
      exact absurd this (by decide)
    · cases e : Nat.toDigits 10 k with
      | nil => exact absurd e hne
      | cons a l =>
        have h3 := hlast a (by rw [e]; simp)
        simp only [indexed, e, List.cons_append, List.cons.injEq] at ht
        rw [← ht.2.2.1] at h3
        exact absurd h3 (by decide)
  · intro j h
    simp only [indexed, List.cons.injEq] at h
    rcases hc with rfl | rfl <;> simp at h

omit [PyChars] in
theorem range_nodup' (c : Char) (n : ℕ) : (Names.range c n).Nodup := by
  refine List.Nodup.map_on (fun i _ j _ h => ?_) List.nodup_range
  simp only [indexed, List.cons.injEq, true_and] at h
  have := congrArg (Nat.ofDigitChars 10 · 0) h
  simpa using this

/-- Coordinates given by their number are the list of `q_i`. -/
theorem findArguments_int (sets : List (List Name)) (n : ℕ) (u : UVars) (sl sa : Bool) :
    findArguments sets (.int n) u sl sa = findArguments sets (.list (Names.range 'q' n)) u sl sa := by
  have h : expectedQ (.list (Names.range 'q' n)) = expectedQ (.int n) := by
    have hk : ∀ k, ∀ x ∈ Names.range 'q' n, diffToSymb (.dyn x k) = .ok (match diffToSymb (.dyn x k) with
        | .ok s => s | .error _ => []) := by
      intro k x hx
      obtain ⟨i, -, rfl⟩ := List.mem_map.1 hx
      obtain ⟨s, hs⟩ := (C51_total (.dyn (indexed 'q' i) k) (by simp [baseName, indexed])).2 (.inl (by simp [baseName, indexed]))
      simp only [hs]
    unfold expectedQ
    dsimp only
    rw [Exc.mapM_eq (hk 0), Exc.mapM_eq (hk 1), Exc.mapM_eq (hk 2)]
    simp only [bind, Except.bind, pure, Except.pure, Except.ok.injEq, Prod.mk.injEq, Names.range, List.map_map]
    refine ⟨?_, ?_, ?_⟩ <;> refine List.map_congr_left fun i _ => ?_
    · rfl
    · have hQ : isQ (indexed 'q' i) = .ok true := by simp [isQ, indexed]
      simp only [Function.comp, diffToSymb, hQ, Except.map]
      rfl
    · have hQ : isQ (indexed 'q' i) = .ok true := by simp [isQ, indexed]
      simp only [Function.comp, diffToSymb, hQ, Except.map]
      rfl
  unfold findArguments
  rw [h]

/-- What is used of the arguments that are found. -/
theorem args_ok {q : QVars} (ho : q ≠ .other) (hl : ∀ n ∈ qNames q, Plain n) (hnd : (qNames q).Nodup) {u : UVars}
    (hu : FitU (qNames q) u) (sl sa : Bool) (o : SetOrder) {es : List Expr} (h : ∀ e ∈ es, Named e) :
    ∃ a, findArgs o es q u sl sa = .ok a ∧ (a.q ++ a.v ++ a.a ++ a.u ++ a.params ++ a.lam).Nodup ∧
      a.q.length = (qNames q).length ∧ a.v.length = (qNames q).length ∧
      (∀ e ∈ es, ∀ x ∈ (mapAtoms renamed e).atoms, ∃ n ∈ a.q ++ a.v ++ a.a ++ a.u ++ a.params ++ a.lam, x = .sym n) ∧
      (∀ σ ρ, Values σ ρ → a.q.map ρ = (qNames q).map (fun n => σ (.dyn n 0)) ∧ a.v.map ρ = (qNames q).map (fun n => σ (.dyn n 1)) ∧
        (sa = true → a.a.map ρ = (qNames q).map (fun n => σ (.dyn n 2)))) ∧
      (sa = true → a.a.length = (qNames q).length) ∧ (sa = false → a.a = []) ∧ (sl = false → a.lam = []) := by
  obtain ⟨sets, hs⟩ : ∃ sets, sets = es.map fun e => o.sym (mapAtoms renamed e) := ⟨_, rfl⟩
  have hq : findArguments sets q u sl sa = findArguments sets (.list (qNames q)) u sl sa := by
    cases q with
    | int n => exact findArguments_int _ _ _ _ _
    | list l => rfl
    | other => exact absurd rfl ho
  obtain ⟨a, ha, h1, h2, h3, h4, h5⟩ := C53_names_partial (sets := sets) hl hnd hu sl sa
  have hmap : ∀ (g : List Name) (k : ℕ), g.length = (qNames q).length →
      (∀ i n, (qNames q)[i]? = some n → rename (.dyn n k) = .ok (g.getD i [])) → ∀ σ ρ, Values σ ρ →
      g.map ρ = (qNames q).map fun n => σ (.dyn n k) := by
    intro g k hg hr σ ρ hv
    refine List.ext_getElem (by simp [hg]) fun i hi1 hi2 => ?_
    simp only [List.length_map] at hi1 hi2
    have := hr i _ (List.getElem?_eq_getElem hi2)
    rw [List.getD_eq_getElem?_getD, List.getElem?_eq_getElem hi1, Option.getD_some] at this
    simp only [List.getElem_map]
    exact (hv _ _ this).symm
  refine ⟨a, by rw [findArgs_eq o h, ← hs, hq, ha]; rfl, h1, h2, h3, ?_, ?_, h4, ?_, ?_⟩
  · intro e he x hx
    obtain ⟨s, rfl, -⟩ := renamed_atoms (h e he) hx
    refine ⟨s, C53_cover ha (s := o.sym (mapAtoms renamed e)) (by rw [hs]; exact List.mem_map.2 ⟨e, he, rfl⟩) ?_, rfl⟩
    exact (o.sym_mem _ _).2 hx
  · intro σ ρ hv
    exact ⟨hmap _ 0 h2 (fun i n hi => (h5 i n hi).1) σ ρ hv, hmap _ 1 h3 (fun i n hi => (h5 i n hi).2.1) σ ρ hv,
      fun hsa => hmap _ 2 (h4 hsa) (fun i n hi => (h5 i n hi).2.2 hsa) σ ρ hv⟩
  · intro hsa
    exact (find_groups ha).1 hsa
  · intro hsl
    exact (find_groups ha).2 hsl

theorem map_eval_renamed {es : List Expr} (h : ∀ e ∈ es, Named e) {σ : Quantity → ℝ} {ρ : Name → ℝ} (hv : Values σ ρ) :
    (es.map (mapAtoms renamed)).map (fun e => e.eval fun q => match q with | .sym n => ρ n | .dyn _ _ => 0) = es.map fun e => e.eval σ := by
  rw [List.map_map]
  exact List.map_congr_left fun e he => eval_renamed (h e he) hv

/-! ### C128: explicit dynamics -/

/-- C128. For coordinates with plain names, `rhs_to_casadi_function` in mode `"x"` gives a function of the states, the controls and the
parameters, in the order of `find_arguments`, with values `x'`: the velocities followed by the values of the expressions, when these are as many as coordinates, and
the values of the expressions when they are as many as states. -/
theorem C128_x {q : QVars} (ho : q ≠ .other) (hl : ∀ n ∈ qNames q, Plain n) (hnd : (qNames q).Nodup) {u : UVars}
    (hu : FitU (qNames q) u) (o : SetOrder) {RHS : List Expr} (h : ∀ e ∈ RHS, Named e)
    (hn : RHS.length = (qNames q).length ∨ RHS.length = 2 * (qNames q).length) :
    ∃ a F, findArgs o RHS q u false false = .ok a ∧ rhsToCasadi o RHS q u "x" = .ok F ∧
      F.sizes = [2 * (qNames q).length, a.u.length, a.params.length] ∧ ∀ σ ρ, Values σ ρ →
      F.run [((qNames q).map fun n => σ (.dyn n 0)) ++ (qNames q).map fun n => σ (.dyn n 1), a.u.map ρ, a.params.map ρ] =
        if RHS.length = (qNames q).length then ((qNames q).map fun n => σ (.dyn n 1)) ++ RHS.map fun e => e.eval σ
        else RHS.map fun e => e.eval σ := by
  obtain ⟨a, ha, h1, h2, h3, h4, h5, -, h7, h8⟩ := args_ok ho hl hnd hu false false o h
  rw [h7 rfl, h8 rfl, List.append_nil, List.append_nil] at h1 h4
  have e2 : rhsToCasadi o RHS q u "x" = (funcsX a (RHS.map (mapAtoms renamed))).bind fun funcs =>
      assemble funcs [a.q ++ a.v, a.u, a.params] := by
    simp only [rhsToCasadi, renameAll_eq o h, findArgs_again o h, ha, bind, Except.bind, if_true]
  have hfl : [a.q ++ a.v, a.u, a.params].flatten = a.q ++ a.v ++ a.u ++ a.params := by simp
  refine ⟨a, ?_⟩
  by_cases hc : RHS.length = (qNames q).length
  · have e1 : funcsX a (RHS.map (mapAtoms renamed)) = .ok (a.v.map (fun n => Expr.atom (.sym n)) ++ RHS.map (mapAtoms renamed)) := by
      unfold funcsX
      rw [if_pos (by rw [List.length_map, h2, hc])]
    obtain ⟨F, f1, f2, f3⟩ := assemble_eq (groups := [a.q ++ a.v, a.u, a.params])
      (funcs := a.v.map (fun n => Expr.atom (.sym n)) ++ RHS.map (mapAtoms renamed)) (by rw [hfl]; exact h1) (by
        rw [hfl]
        intro e he x hx
        rcases List.mem_append.1 he with he | he
        · obtain ⟨n, hn, rfl⟩ := List.mem_map.1 he
          simp only [Expr.atoms, List.mem_singleton] at hx
          exact ⟨n, by simp [hn], hx⟩
        · obtain ⟨e', he', rfl⟩ := List.mem_map.1 he
          exact h4 e' he' x hx)
    refine ⟨F, ha, by rw [e2, e1]; exact f1, by rw [f2]; simp [h2, h3, two_mul], fun σ ρ hv => ?_⟩
    have := f3 ρ (fun q => match q with | .sym n => ρ n | .dyn _ _ => 0) fun _ => rfl
    simp only [List.map_cons, List.map_nil, List.map_append, (h5 σ ρ hv).1, (h5 σ ρ hv).2.1, map_eval_renamed h hv] at this
    rw [if_pos hc, this, ← (h5 σ ρ hv).2.1, List.map_map]
    rfl
  · have hc' : RHS.length = 2 * (qNames q).length := hn.resolve_left hc
    have e1 : funcsX a (RHS.map (mapAtoms renamed)) = .ok (RHS.map (mapAtoms renamed)) := by
      unfold funcsX
      rw [if_neg (by rw [List.length_map, h2]; exact fun h => hc h.symm), if_pos (by simp [h2, h3, hc', two_mul])]
    obtain ⟨F, f1, f2, f3⟩ := assemble_eq (groups := [a.q ++ a.v, a.u, a.params])
      (funcs := RHS.map (mapAtoms renamed)) (by rw [hfl]; exact h1) (by
        rw [hfl]
        intro e he x hx
        obtain ⟨e', he', rfl⟩ := List.mem_map.1 he
        exact h4 e' he' x hx)
    refine ⟨F, ha, by rw [e2, e1]; exact f1, by rw [f2]; simp [h2, h3, two_mul], fun σ ρ hv => ?_⟩
    have := f3 ρ (fun q => match q with | .sym n => ρ n | .dyn _ _ => 0) fun _ => rfl
    simp only [List.map_cons, List.map_nil, List.map_append, (h5 σ ρ hv).1, (h5 σ ρ hv).2.1, map_eval_renamed h hv] at this
    rw [if_neg hc, this]

/-- C128, mode `"q"`: a function of the coordinates, the velocities, the controls and the parameters, whose values are the accelerations: those of the
expressions, or of their second half. -/
theorem C128_q {q : QVars} (ho : q ≠ .other) (hl : ∀ n ∈ qNames q, Plain n) (hnd : (qNames q).Nodup) {u : UVars}
    (hu : FitU (qNames q) u) (o : SetOrder) {RHS : List Expr} (h : ∀ e ∈ RHS, Named e)
    (hn : RHS.length = (qNames q).length ∨ RHS.length = 2 * (qNames q).length) :
    ∃ a F, findArgs o RHS q u false false = .ok a ∧ rhsToCasadi o RHS q u "q" = .ok F ∧
      F.sizes = [(qNames q).length, (qNames q).length, a.u.length, a.params.length] ∧ ∀ σ ρ, Values σ ρ →
      F.run [(qNames q).map fun n => σ (.dyn n 0), (qNames q).map fun n => σ (.dyn n 1), a.u.map ρ, a.params.map ρ] =
        if RHS.length = (qNames q).length then RHS.map fun e => e.eval σ
        else (RHS.drop (qNames q).length).map fun e => e.eval σ := by
  obtain ⟨a, ha, h1, h2, h3, h4, h5, -, h7, h8⟩ := args_ok ho hl hnd hu false false o h
  rw [h7 rfl, h8 rfl, List.append_nil, List.append_nil] at h1 h4
  have e2 : rhsToCasadi o RHS q u "q" = (funcsQ a (RHS.map (mapAtoms renamed))).bind fun funcs =>
      assemble funcs [a.q, a.v, a.u, a.params] := by
    simp only [rhsToCasadi, renameAll_eq o h, findArgs_again o h, ha, bind, Except.bind]
    rw [if_neg (by decide), if_pos trivial]
  have hfl : [a.q, a.v, a.u, a.params].flatten = a.q ++ a.v ++ a.u ++ a.params := by simp
  -- the expressions that are used
  obtain ⟨R, hR, hsub, e1⟩ : ∃ R : List Expr, (R = if RHS.length = (qNames q).length then RHS else RHS.drop (qNames q).length) ∧
      (∀ e ∈ R, e ∈ RHS) ∧ funcsQ a (RHS.map (mapAtoms renamed)) = .ok (R.map (mapAtoms renamed)) := by
    refine ⟨_, rfl, ?_, ?_⟩
    · split_ifs
      · exact fun e he => he
      · exact fun e he => List.mem_of_mem_drop he
    · unfold funcsQ
      by_cases hc : RHS.length = (qNames q).length
      · rw [if_pos (by rw [List.length_map, h2, hc]), if_pos hc]
      · have hc' : RHS.length = 2 * (qNames q).length := hn.resolve_left hc
        rw [if_neg (by rw [List.length_map, h2]; exact fun h => hc h.symm), if_pos (by simp [h2, h3, hc', two_mul]), if_neg hc,
          List.length_map, hc', List.map_drop, Nat.mul_div_cancel_left _ two_pos]
  obtain ⟨F, f1, f2, f3⟩ := assemble_eq (groups := [a.q, a.v, a.u, a.params])
    (funcs := R.map (mapAtoms renamed)) (by rw [hfl]; exact h1) (by
      rw [hfl]
      intro e he x hx
      obtain ⟨e', he', rfl⟩ := List.mem_map.1 he
      exact h4 e' (hsub e' he') x hx)
  refine ⟨a, F, ha, by rw [e2, e1]; exact f1, by rw [f2]; simp [h2, h3], fun σ ρ hv => ?_⟩
  have := f3 ρ (fun q => match q with | .sym n => ρ n | .dyn _ _ => 0) fun _ => rfl
  simp only [List.map_cons, List.map_nil, (h5 σ ρ hv).1, (h5 σ ρ hv).2.1, map_eval_renamed (fun e he => h e (hsub e he)) hv] at this
  rw [this, hR]
  split_ifs <;> rfl

/-- C128: other numbers of expressions raise in both modes. -/
theorem C128_shape {q : QVars} (ho : q ≠ .other) (hl : ∀ n ∈ qNames q, Plain n) (hnd : (qNames q).Nodup) {u : UVars}
    (hu : FitU (qNames q) u) (o : SetOrder) {RHS : List Expr} (h : ∀ e ∈ RHS, Named e)
    (h1 : RHS.length ≠ (qNames q).length) (h2 : RHS.length ≠ 2 * (qNames q).length) (mode : String) :
    rhsToCasadi o RHS q u mode = .error .value := by
  obtain ⟨a, ha, -, g2, g3, -⟩ := args_ok ho hl hnd hu false false o h
  have e1 : funcsX a (RHS.map (mapAtoms renamed)) = .error .value := by
    unfold funcsX
    rw [if_neg (by rw [List.length_map, g2]; exact fun h => h1 h.symm),
      if_neg (by rw [List.length_map, List.length_append, g2, g3]; omega)]
  have e2 : funcsQ a (RHS.map (mapAtoms renamed)) = .error .value := by
    unfold funcsQ
    rw [if_neg (by rw [List.length_map, g2]; exact fun h => h1 h.symm),
      if_neg (by rw [List.length_map, List.length_append, g2, g3]; omega)]
  simp only [rhsToCasadi, renameAll_eq o h, findArgs_again o h, ha, bind, Except.bind, e1, e2]
  split_ifs <;> rfl

theorem values_exist {names : List Name} (hn : names.Nodup) (vals : List ℝ) (hl : vals.length = names.length) :
    ∃ σ ρ, Values σ ρ ∧ names.map ρ = vals := by
  refine ⟨fun q => match rename q with | .ok s => vals.getD (names.idxOf s) 0 | .error _ => 0, fun s => vals.getD (names.idxOf s) 0,
    fun q s hs => by simp only [hs], ?_⟩
  refine List.ext_getElem (by simp [hl]) fun i h1 h2 => ?_
  simp only [List.length_map] at h1
  rw [List.getElem_map, hn.idxOf_getElem i h1, List.getD_eq_getElem?_getD, List.getElem?_eq_getElem h2, Option.getD_some]

/-- C128: all vectors with the sizes of the arguments are the values of some quantities, so that the theorems above determine the functions. -/
theorem C128_all {q : QVars} (ho : q ≠ .other) (hl : ∀ n ∈ qNames q, Plain n) (hnd : (qNames q).Nodup) {u : UVars}
    (hu : FitU (qNames q) u) (o : SetOrder) {RHS : List Expr} (h : ∀ e ∈ RHS, Named e) {a : Args}
    (ha : findArgs o RHS q u false false = .ok a) {qs vs us ps : List ℝ} (l1 : qs.length = (qNames q).length)
    (l2 : vs.length = (qNames q).length) (l3 : us.length = a.u.length) (l4 : ps.length = a.params.length) :
    ∃ σ ρ, Values σ ρ ∧ (qNames q).map (fun n => σ (.dyn n 0)) = qs ∧ (qNames q).map (fun n => σ (.dyn n 1)) = vs ∧
      a.u.map ρ = us ∧ a.params.map ρ = ps := by
  obtain ⟨a', ha', h1, h2, h3, h4, h5, -, h7, h8⟩ := args_ok ho hl hnd hu false false o h
  rw [ha] at ha'
  cases ha'
  rw [h7 rfl, h8 rfl, List.append_nil, List.append_nil] at h1
  obtain ⟨σ, ρ, hv, hm⟩ := values_exist h1 (qs ++ vs ++ us ++ ps) (by simp [l1, l2, l3, l4, h2, h3])
  simp only [List.map_append] at hm
  obtain ⟨hm, m4⟩ := List.append_inj' hm (by simp [l4])
  obtain ⟨hm, m3⟩ := List.append_inj' hm (by simp [l3])
  obtain ⟨m1, m2⟩ := List.append_inj' hm (by simp [l2, h3])
  exact ⟨σ, ρ, hv, (h5 σ ρ hv).1 ▸ m1, (h5 σ ρ hv).2.1 ▸ m2, m3, m4⟩

/-! ### C129: the residuals of explicit dynamics -/

/-- All entries are zero. -/
def Zeros (l : List ℝ) : Prop := ∀ y ∈ l, y = 0

omit [PyChars] in
theorem vsub_zeros {a b : List ℝ} (h : a.length = b.length) : Zeros (vsub a b) ↔ a = b := by
  induction a generalizing b with
  | nil =>
    obtain rfl : b = [] := List.length_eq_zero_iff.1 h.symm
    simp [Zeros, vsub]
  | cons x a ih =>
    cases b with
    | nil => simp at h
    | cons y b =>
      have := ih (b := b) (by simpa using h)
      simp only [Zeros, vsub, List.zipWith_cons_cons, List.mem_cons, forall_eq_or_imp, sub_eq_zero, List.cons.injEq] at this ⊢
      rw [this]

omit [PyChars] in
theorem qNumber_eq {q : QVars} (ho : q ≠ .other) : qNumber q = .ok (qNames q).length := by
  cases q with
  | int n => simp [qNumber, qNames, Names.range]
  | list l => rfl
  | other => exact absurd rfl ho

/-- C129. The residuals made from as many expressions as coordinates vanish exactly for the motions of the system: `dynam_f_x` when the
derivative of the state is the velocities followed by the values of the expressions, `dynam_g_x` when the second half of the derivative of the
state is the values of the expressions, and `dynam_g_q` when the accelerations are. -/
theorem C129_residuals {q : QVars} (ho : q ≠ .other) (hl : ∀ n ∈ qNames q, Plain n) (hnd : (qNames q).Nodup) {u : UVars}
    (hu : FitU (qNames q) u) (o : SetOrder) {RHS : List Expr} (h : ∀ e ∈ RHS, Named e)
    (hn : RHS.length = (qNames q).length) :
    ∃ a fg, findArgs o RHS q u false false = .ok a ∧ getFG o RHS q u = .ok fg ∧
      fg.f_x.sizes = [2 * (qNames q).length, 2 * (qNames q).length, a.u.length, 0, a.params.length] ∧ fg.g_x.sizes = fg.f_x.sizes ∧
      fg.g_q.sizes = [(qNames q).length, (qNames q).length, (qNames q).length, a.u.length, 0, a.params.length] ∧
      ∀ σ ρ, Values σ ρ → ∀ (v acc x' v' : List ℝ), v = (qNames q).map (fun n => σ (.dyn n 1)) → acc = RHS.map (fun e => e.eval σ) →
        x'.length = 2 * (qNames q).length → v'.length = (qNames q).length →
        (Zeros (fg.f_x.run [(qNames q).map (fun n => σ (.dyn n 0)) ++ v, x', a.u.map ρ, [], a.params.map ρ]) ↔ x' = v ++ acc) ∧
        (Zeros (fg.g_x.run [(qNames q).map (fun n => σ (.dyn n 0)) ++ v, x', a.u.map ρ, [], a.params.map ρ]) ↔
          x'.drop (qNames q).length = acc) ∧
        (Zeros (fg.g_q.run [(qNames q).map (fun n => σ (.dyn n 0)), v, v', a.u.map ρ, [], a.params.map ρ]) ↔ v' = acc) := by
  obtain ⟨a, F, ha, hF, s1, r1⟩ := C128_x ho hl hnd hu o h (.inl hn)
  obtain ⟨a', G, ha', hG, s2, r2⟩ := C128_q ho hl hnd hu o h (.inl hn)
  rw [ha] at ha'
  cases ha'
  refine ⟨a, _, ha, by simp only [getFG, qNumber_eq ho, hF, hG, bind, Except.bind, pure, Except.pure]; rfl, ?_, rfl, ?_, ?_⟩
  · simp [s1, mul_comm]
  · simp [s1]
  · rintro σ ρ hv _ _ x' v' rfl rfl lx lv
    have e1 := r1 σ ρ hv
    have e2 := r2 σ ρ hv
    rw [if_pos hn] at e1 e2
    simp only [arg, List.getD_cons_zero, List.getD_cons_succ, e1, e2]
    refine ⟨vsub_zeros (by simp [lx, hn, two_mul]), ?_, vsub_zeros (by simp [lv, hn])⟩
    rw [vsub_zeros (by simp [lx, hn, two_mul]), List.drop_left' (by simp)]

/-- C129 for expressions that give the derivative of the whole state. -/
theorem C129_states {q : QVars} (ho : q ≠ .other) (hl : ∀ n ∈ qNames q, Plain n) (hnd : (qNames q).Nodup) {u : UVars}
    (hu : FitU (qNames q) u) (o : SetOrder) {RHS : List Expr} (h : ∀ e ∈ RHS, Named e)
    (hn : RHS.length = 2 * (qNames q).length) :
    ∃ a fg, findArgs o RHS q u false false = .ok a ∧ getFG o RHS q u = .ok fg ∧
      ∀ σ ρ, Values σ ρ → ∀ (v x' v' : List ℝ), v = (qNames q).map (fun n => σ (.dyn n 1)) →
        x'.length = 2 * (qNames q).length → v'.length = (qNames q).length →
        (Zeros (fg.f_x.run [(qNames q).map (fun n => σ (.dyn n 0)) ++ v, x', a.u.map ρ, [], a.params.map ρ]) ↔
          x' = RHS.map fun e => e.eval σ) ∧
        (Zeros (fg.g_x.run [(qNames q).map (fun n => σ (.dyn n 0)) ++ v, x', a.u.map ρ, [], a.params.map ρ]) ↔
          x'.drop (qNames q).length = (RHS.drop (qNames q).length).map fun e => e.eval σ) ∧
        (Zeros (fg.g_q.run [(qNames q).map (fun n => σ (.dyn n 0)), v, v', a.u.map ρ, [], a.params.map ρ]) ↔
          v' = (RHS.drop (qNames q).length).map fun e => e.eval σ) := by
  obtain ⟨a, F, ha, hF, s1, r1⟩ := C128_x ho hl hnd hu o h (.inr hn)
  obtain ⟨a', G, ha', hG, s2, r2⟩ := C128_q ho hl hnd hu o h (.inr hn)
  rw [ha] at ha'
  cases ha'
  refine ⟨a, _, ha, by simp only [getFG, qNumber_eq ho, hF, hG, bind, Except.bind, pure, Except.pure]; rfl, ?_⟩
  rintro σ ρ hv _ x' v' rfl lx lv
  have e1 := r1 σ ρ hv
  have e2 := r2 σ ρ hv
  by_cases hc : RHS.length = (qNames q).length
  · -- no coordinates at all
    have h0 : (qNames q).length = 0 := by omega
    have hq : qNames q = [] := List.length_eq_zero_iff.1 h0
    have hR : RHS = [] := List.length_eq_zero_iff.1 (by omega)
    rw [h0] at lx lv
    obtain rfl : x' = [] := List.length_eq_zero_iff.1 lx
    obtain rfl : v' = [] := List.length_eq_zero_iff.1 lv
    simp [arg, hq, hR, Zeros, vsub]
  · rw [if_neg hc] at e1 e2
    simp only [arg, List.getD_cons_zero, List.getD_cons_succ, e1, e2]
    refine ⟨vsub_zeros (by simp [lx, hn]), ?_, vsub_zeros (by simp [lv, hn, two_mul])⟩
    rw [vsub_zeros (by simp [lx, hn]), List.map_drop]

/-! ### C130: implicit dynamics -/

/-- C130. `implicit_dynamic_q_to_casadi_function` gives the function whose values are those of the expressions, when coordinates, velocities,
accelerations, controls, multipliers and parameters have the values of the arguments. -/
theorem C130_q {q : QVars} (ho : q ≠ .other) (hl : ∀ n ∈ qNames q, Plain n) (hnd : (qNames q).Nodup) {u : UVars}
    (hu : FitU (qNames q) u) (o : SetOrder) {D : List Expr} (h : ∀ e ∈ D, Named e) :
    ∃ a F, findArgs o D q u true true = .ok a ∧ implicitQFun o D q u = .ok F ∧
      F.sizes = [(qNames q).length, (qNames q).length, (qNames q).length, a.u.length, a.lam.length, a.params.length] ∧ ∀ σ ρ, Values σ ρ →
      F.run [(qNames q).map fun n => σ (.dyn n 0), (qNames q).map fun n => σ (.dyn n 1), (qNames q).map fun n => σ (.dyn n 2),
        a.u.map ρ, a.lam.map ρ, a.params.map ρ] = D.map fun e => e.eval σ := by
  have hd : dynVars 'q' q = .ok (qNames q) := by
    cases q with
    | int n => rfl
    | list l => rfl
    | other => exact absurd rfl ho
  obtain ⟨a, ha, h1, h2, h3, h4, h5, h6, -, -⟩ := args_ok ho hl hnd hu true true o h
  obtain ⟨a', ha', -⟩ := args_ok (q := .list (qNames q)) (by simp) hl hnd hu true true o h
  have hq : findArgs o D (.list (qNames q)) u true true = findArgs o D q u true true := by
    cases q with
    | int n => rw [findArgs_eq o h, findArgs_eq o h, findArguments_int]; rfl
    | list l => rfl
    | other => exact absurd rfl ho
  have e2 : implicitQFun o D q u = assemble (D.map (mapAtoms renamed)) [a.q, a.v, a.a, a.u, a.lam, a.params] := by
    simp only [implicitQFun, renameAll_eq o h, hd, findArgs_again o h, hq, ha, bind, Except.bind]
  have hfl : ([a.q, a.v, a.a, a.u, a.lam, a.params].flatten).Perm (a.q ++ a.v ++ a.a ++ a.u ++ a.params ++ a.lam) := by
    simp only [List.flatten_cons, List.flatten_nil, List.append_nil, List.append_assoc]
    exact List.Perm.append_left _ (List.Perm.append_left _ (List.Perm.append_left _ (List.Perm.append_left _ List.perm_append_comm)))
  obtain ⟨F, f1, f2, f3⟩ := assemble_eq (groups := [a.q, a.v, a.a, a.u, a.lam, a.params])
    (funcs := D.map (mapAtoms renamed)) (hfl.nodup_iff.2 h1) (by
      intro e he x hx
      obtain ⟨e', he', rfl⟩ := List.mem_map.1 he
      obtain ⟨n, g1, g2⟩ := h4 e' he' x hx
      exact ⟨n, hfl.mem_iff.2 g1, g2⟩)
  refine ⟨a, F, ha, by rw [e2]; exact f1, by rw [f2]; simp [h2, h3, h6 rfl], fun σ ρ hv => ?_⟩
  have := f3 ρ (fun q => match q with | .sym n => ρ n | .dyn _ _ => 0) fun _ => rfl
  simp only [List.map_cons, List.map_nil, (h5 σ ρ hv).1, (h5 σ ρ hv).2.1, (h5 σ ρ hv).2.2 rfl, map_eval_renamed h hv] at this
  exact this

/-- The names of the states. -/
def xNames : QVars → List Name
  | .int n => Names.range 'x' n
  | .list l => l
  | .other => []

/-- C130, for `implicit_dynamic_x_to_casadi_function`: the same with states and their derivatives. -/
theorem C130_x {q : QVars} (ho : q ≠ .other) (hl : ∀ n ∈ xNames q, Plain n) (hnd : (xNames q).Nodup) {u : UVars}
    (hu : FitU (xNames q) u) (o : SetOrder) {D : List Expr} (h : ∀ e ∈ D, Named e) :
    ∃ a F, findArgs o D (.list (xNames q)) u true false = .ok a ∧ implicitXFun o D q u = .ok F ∧
      F.sizes = [(xNames q).length, (xNames q).length, a.u.length, a.lam.length, a.params.length] ∧ ∀ σ ρ, Values σ ρ →
      F.run [(xNames q).map fun n => σ (.dyn n 0), (xNames q).map fun n => σ (.dyn n 1), a.u.map ρ, a.lam.map ρ, a.params.map ρ] =
        D.map fun e => e.eval σ := by
  have hd : dynVars 'x' q = .ok (xNames q) := by
    cases q with
    | int n => rfl
    | list l => rfl
    | other => exact absurd rfl ho
  obtain ⟨a, ha, h1, h2, h3, h4, h5, -, h7, -⟩ := args_ok (q := .list (xNames q)) (by simp) hl hnd hu true false o h
  rw [h7 rfl, List.append_nil] at h1 h4
  have e2 : implicitXFun o D q u = assemble (D.map (mapAtoms renamed)) [a.q, a.v, a.u, a.lam, a.params] := by
    simp only [implicitXFun, renameAll_eq o h, hd, findArgs_again o h, ha, bind, Except.bind]
  have hfl : ([a.q, a.v, a.u, a.lam, a.params].flatten).Perm (a.q ++ a.v ++ a.u ++ a.params ++ a.lam) := by
    simp only [List.flatten_cons, List.flatten_nil, List.append_nil, List.append_assoc]
    exact List.Perm.append_left _ (List.Perm.append_left _ (List.Perm.append_left _ List.perm_append_comm))
  obtain ⟨F, f1, f2, f3⟩ := assemble_eq (groups := [a.q, a.v, a.u, a.lam, a.params])
    (funcs := D.map (mapAtoms renamed)) (hfl.nodup_iff.2 h1) (by
      intro e he x hx
      obtain ⟨e', he', rfl⟩ := List.mem_map.1 he
      obtain ⟨n, g1, g2⟩ := h4 e' he' x hx
      exact ⟨n, hfl.mem_iff.2 g1, g2⟩)
  refine ⟨a, F, ha, by rw [e2]; exact f1, by rw [f2]; simp [h2, h3, qNames], fun σ ρ hv => ?_⟩
  have := f3 ρ (fun q => match q with | .sym n => ρ n | .dyn _ _ => 0) fun _ => rfl
  simp only [List.map_cons, List.map_nil, (h5 σ ρ hv).1, (h5 σ ρ hv).2.1, map_eval_renamed h hv] at this
  exact this

/-! ### C131: the parameters of a problem -/

omit [PyChars] in
theorem liftN_ok {A : Type} {x : Except NErr A} {a : A} (h : liftN x = .ok a) : x = .ok a := by
  cases x with
  | ok b => exact congrArg Except.ok (Except.ok.inj h)
  | error e => cases h

/-- C131 for explicit dynamics: `params_sym` are the parameters of the functions, in their order. -/
theorem C131_explicit {q : List Name} (hl : ∀ n ∈ q, Plain n) (hnd : q.Nodup) {u : UVars}
    (hu : FitU q u) (o : SetOrder) {RHS : List Expr} (h : ∀ e ∈ RHS, Named e)
    (hn : RHS.length = q.length) : ∃ a fg st, findArgs o RHS (.list q) u false false = .ok a ∧ getFG o RHS (.list q) u = .ok fg ∧
      explicitSetup o RHS q u = .ok st ∧ st.params_sym = a.params ∧ st.dyn_f_restr = fg.f_x ∧ st.dyn_g_restr = fg.g_q ∧
      st.dyn_f_restr.sizes.getLast? = some st.params_sym.length ∧ st.dyn_g_restr.sizes.getLast? = some st.params_sym.length := by
  obtain ⟨a, fg, ha, hfg, s1, -, s2, -⟩ := C129_residuals (q := .list q) (by simp) hl hnd hu o h hn
  refine ⟨a, fg, ⟨a.params, fg.f_x, fg.g_q, 0⟩, ha, hfg, ?_, rfl, rfl, rfl, by rw [s1]; rfl, by rw [s2]; rfl⟩
  simp only [explicitSetup, ha, hfg, bind, Except.bind, pure, Except.pure]

/-- C131 for implicit dynamics, what holds: all parameters of the functions are in `params_sym`, the number of multipliers is that of the functions, and if no acceleration
appears `params_sym` are the parameters. -/
theorem C131_implicit_partial {q : List Name} (hl : ∀ n ∈ q, Plain n) (hnd : q.Nodup) (o : SetOrder) {DX DQ : List Expr}
    (hX : ∀ e ∈ DX, Named e) (hQ : ∀ e ∈ DQ, Named e) :
    ∃ a st, findArgs o DQ (.list q) .none true true = .ok a ∧ implicitSetup o DX DQ q = .ok st ∧
      implicitQFun o DQ (.list q) .none = .ok st.dyn_g_restr ∧
      implicitXFun o DX (.list (Names.range 'x' (2 * q.length))) .none = .ok st.dyn_f_restr ∧
      st.dyn_f_restr.sizes[3]? = some st.n_lambdas ∧ (∀ n ∈ a.params, n ∈ st.params_sym) ∧
      ((∀ e ∈ DQ, ∀ n ∈ q, ∀ s, rename (.dyn n 2) = .ok s → ∀ x ∈ e.atoms, rename x ≠ .ok s) →
        st.params_sym = a.params) ∧
      ∃ accs, st.params_sym.Perm (a.params ++ accs) ∧ ∀ s, s ∈ accs ↔ s ∈ a.a ∧ ∃ e ∈ DQ, ∃ x ∈ e.atoms, rename x = .ok s := by
  obtain ⟨a, G, ha, hG, s2, -⟩ := C130_q (q := .list q) (by simp) hl hnd (u := .none) trivial o hQ
  obtain ⟨ax, F, hax, hF, s1, -⟩ := C130_x (q := .list (Names.range 'x' (2 * q.length))) (by simp)
    (fun n hn => by obtain ⟨i, -, rfl⟩ := List.mem_map.1 hn; exact plain_indexed (.inr rfl) i) (range_nodup' _ _) (u := .none) trivial o hX
  obtain ⟨b, hb, -⟩ := args_ok (q := .list q) (by simp) hl hnd (u := .none) trivial true false o hQ
  obtain ⟨a', ha', g1, -, -, -, -, g6, -⟩ := args_ok (q := .list q) (by simp) hl hnd (u := .none) trivial true true o hQ
  rw [ha] at ha'
  cases ha'
  have ha2 := ha
  have hb2 := hb
  rw [findArgs_eq o hQ] at ha2 hb2
  obtain ⟨-, -, -, -, accs, p1, p2, p3, p4⟩ := find_merge (liftN_ok hb2) (liftN_ok ha2)
  have hflat : ∀ s, s ∈ (DQ.map fun e => o.sym (mapAtoms renamed e)).flatten ↔ ∃ e ∈ DQ, ∃ x ∈ e.atoms, rename x = .ok s := by
    intro s
    simp only [List.mem_flatten, List.mem_map]
    constructor
    · rintro ⟨_, ⟨e, he, rfl⟩, hs⟩
      obtain ⟨s', h1, -, x, hx, hxs⟩ := renamed_atoms (hQ e he) ((o.sym_mem _ _).1 hs)
      cases h1
      exact ⟨e, he, x, hx, hxs⟩
    · rintro ⟨e, he, x, hx, hxs⟩
      refine ⟨_, ⟨e, he, rfl⟩, (o.sym_mem _ _).2 ?_⟩
      rw [atoms_mapAtoms]
      exact List.mem_map.2 ⟨x, hx, by simp only [renamed, hxs]⟩
  have hacc : ∀ s, s ∈ accs ↔ s ∈ a.a ∧ ∃ e ∈ DQ, ∃ x ∈ e.atoms, rename x = .ok s := by
    intro s
    rw [← hflat]
    constructor
    · exact fun hs => p3 s hs
    · rintro ⟨h1, h2⟩
      refine p4 s h2 h1 fun h3 => ?_
      rw [List.nodup_append', List.nodup_append', List.nodup_append', List.nodup_append', List.nodup_append'] at g1
      rcases List.mem_append.1 h3 with h3 | h3
      · exact g1.1.1.1.2.2 h3 h1
      · exact g1.1.1.2.2 (List.mem_append_right _ h1) h3
  refine ⟨a, ⟨b.params, F, G, F.sizes.getD 3 0⟩, ha, ?_, hG, hF, by rw [s1]; rfl, ?_, ?_, accs, p1, hacc⟩
  · simp only [implicitSetup, hb, hF, hG, bind, Except.bind, pure, Except.pure]
  · exact fun n hn => p1.mem_iff.2 (List.mem_append_left _ hn)
  · intro h0
    apply p2
    rw [List.eq_nil_iff_forall_not_mem]
    intro s hs
    obtain ⟨h1, e, he, x, hx, hxs⟩ := (hacc s).1 hs
    -- the place of the symbol among the accelerations
    obtain ⟨i, hi, rfl⟩ := List.mem_iff_getElem.1 h1
    obtain ⟨r, hr, -, -, -, -, hp⟩ := C53_names_partial (sets := DQ.map fun e => o.sym (mapAtoms renamed e)) hl hnd
      (u := .none) trivial true true
    rw [liftN_ok ha2] at hr
    cases hr
    have hiq : i < q.length := by rw [← show a.a.length = q.length from g6 rfl]; exact hi
    have := (hp i _ (List.getElem?_eq_getElem hiq)).2.2 rfl
    rw [List.getD_eq_getElem?_getD, List.getElem?_eq_getElem hi, Option.getD_some] at this
    exact h0 e he _ (List.getElem_mem hiq) _ this x hx hxs

/-- C131 fails for implicit dynamics: when the acceleration of a coordinate appears in the equations, its symbol is listed among the
parameters, and `params_sym` has more symbols than the function has parameters. -/
theorem C131_implicit_refuted {q : List Name} (hl : ∀ n ∈ q, Plain n) (hnd : q.Nodup) (o : SetOrder) {DX DQ : List Expr}
    (hX : ∀ e ∈ DX, Named e) (hQ : ∀ e ∈ DQ, Named e) {e : Expr} (he : e ∈ DQ) {n : Name} (hn : n ∈ q) (hq : .dyn n 2 ∈ e.atoms) :
    ∃ st s k, implicitSetup o DX DQ q = .ok st ∧ rename (.dyn n 2) = .ok s ∧ s ∈ st.params_sym ∧
      st.dyn_g_restr.sizes.getLast? = some k ∧ k < st.params_sym.length := by
  obtain ⟨a, st, ha, hst, hG, -, -, -, -, accs, p1, p2⟩ := C131_implicit_partial hl hnd o hX hQ
  obtain ⟨a', G, ha', hG', s2, -⟩ := C130_q (q := .list q) (by simp) hl hnd (u := .none) trivial o hQ
  rw [ha] at ha'
  cases ha'
  rw [hG] at hG'
  cases hG'
  obtain ⟨s, hs⟩ := hQ e he _ hq
  obtain ⟨i, hi, rfl⟩ := List.mem_iff_getElem.1 hn
  have ha2 := ha
  rw [findArgs_eq o hQ] at ha2
  obtain ⟨r, hr, -, -, -, h4, hp⟩ := C53_names_partial (sets := DQ.map fun e => o.sym (mapAtoms renamed e)) hl hnd
    (u := .none) trivial true true
  rw [liftN_ok ha2] at hr
  cases hr
  have h5 := (hp i _ (List.getElem?_eq_getElem hi)).2.2 rfl
  have hia : i < a.a.length := by rw [h4 rfl]; exact hi
  rw [List.getD_eq_getElem?_getD, List.getElem?_eq_getElem hia, Option.getD_some, hs] at h5
  have h5 := Except.ok.inj h5
  have hmem : s ∈ accs := (p2 s).2 ⟨by rw [h5]; exact List.getElem_mem hia, e, he, _, hq, hs⟩
  refine ⟨st, s, a.params.length, hst, hs, p1.mem_iff.2 (List.mem_append_right _ hmem), by rw [s2]; rfl, ?_⟩
  rw [p1.length_eq, List.length_append]
  have := List.length_pos_of_mem hmem
  omega

/-! ### Cases -/

/-- Python's sets in the order of the expression. -/
def textOrder : SetOrder where
  dyn e := e.atoms.filter fun q => match q with | .dyn _ _ => true | .sym _ => false
  sym e := e.atoms.filterMap fun q => match q with | .dyn _ _ => none | .sym n => some n
  dyn_mem e q := by
    cases q <;> simp [List.mem_filter]
  sym_mem e n := by
    simp only [List.mem_filterMap]
    constructor
    · rintro ⟨q, h1, h2⟩
      cases q <;> simp_all
    · exact fun h => ⟨_, h, rfl⟩

/-- The acceleration of a pendulum, `u_0 * m + g * sin(q_0)`. -/
noncomputable def pendulum : Expr :=
  .add (.mul (.atom (.sym (indexed 'u' 0))) (.atom (.sym ['m']))) (.mul (.atom (.sym ['g'])) (.fn Real.sin (.atom (.dyn (indexed 'q' 0) 0))))

/-- Its equation, with the acceleration. -/
noncomputable def pendulumEq : Expr := .add (.atom (.dyn (indexed 'q' 0) 2)) (.mul (.num (-1)) pendulum)

theorem pendulum_named : Named pendulum ∧ Named pendulumEq := by
  have h : ∀ q ∈ [Quantity.dyn (indexed 'q' 0) 2, .sym (indexed 'u' 0), .sym ['m'], .sym ['g'], .dyn (indexed 'q' 0) 0],
      ∃ s, rename q = .ok s := by
    intro q hq
    rw [rename_ok]
    simp only [List.mem_cons, List.not_mem_nil, or_false] at hq
    rcases hq with rfl | rfl | rfl | rfl | rfl
    all_goals exact ⟨_, rfl⟩
  constructor
  · intro q hq
    apply h
    simp only [pendulum, Expr.atoms, List.mem_append, List.mem_cons, List.not_mem_nil, or_false] at hq ⊢
    tauto
  · intro q hq
    apply h
    simp only [pendulumEq, pendulum, Expr.atoms, List.mem_append, List.mem_cons, List.not_mem_nil, or_false, false_or] at hq ⊢
    tauto

/-- The residuals of a pendulum with `q_vars = 1` are those of C129, and C128 gives its function for all numbers. -/
example : ∃ a fg, findArgs textOrder [pendulum] (.int 1) .none false false = .ok a ∧ getFG textOrder [pendulum] (.int 1) .none = .ok fg ∧
    fg.f_x.sizes = [2, 2, a.u.length, 0, a.params.length] := by
  obtain ⟨a, fg, h1, h2, h3, -⟩ := C129_residuals (q := .int 1) (by simp)
    (fun n hn => by obtain ⟨i, -, rfl⟩ := List.mem_map.1 hn; exact plain_indexed (.inl rfl) i) (range_nodup' _ _)
    (u := .none) trivial textOrder (RHS := [pendulum]) (by simpa using pendulum_named.1) (by simp [qNames, Names.range])
  refine ⟨a, fg, h1, h2, ?_⟩
  rw [h3]
  simp [qNames, Names.range]

/-- The parameters stored for the implicit pendulum include its acceleration. -/
example (X : List Expr) (hX : ∀ e ∈ X, Named e) : ∃ st s k, implicitSetup textOrder X [pendulumEq] [indexed 'q' 0] = .ok st ∧
    rename (.dyn (indexed 'q' 0) 2) = .ok s ∧ s ∈ st.params_sym ∧ st.dyn_g_restr.sizes.getLast? = some k ∧ k < st.params_sym.length :=
  C131_implicit_refuted (fun n hn => by rw [List.mem_singleton.1 hn]; exact plain_indexed (.inl rfl) 0) (by simp) textOrder hX
    (by simpa using pendulum_named.2) (e := pendulumEq) (by simp) (n := indexed 'q' 0) (by simp) (by simp [pendulumEq, Expr.atoms])

/-- The torque of a pendulum can be given as a list with any other name. -/
example (c : Name) (h : ∀ k ≤ 2, rename (.dyn (indexed 'q' 0) k) ≠ .ok c) : FitU [indexed 'q' 0] (.list [c]) :=
  ⟨by simp, fun s hs n hn k hk => by rw [List.mem_singleton.1 hs, List.mem_singleton.1 hn]; exact h k hk⟩

/-- Quantities with values exist: all have the value that depends on their symbol. -/
example (ρ : Name → ℝ) : Values (fun q => match rename q with | .ok s => ρ s | .error _ => 0) ρ := fun q s h => by simp only [h]

end Chords.Props
