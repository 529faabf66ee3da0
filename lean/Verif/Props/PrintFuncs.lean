import Verif.Props.NumFuncs

/-! # Dynamics printed as Python functions (C137, C138) -/

namespace Chords.Props
open Names CasFuncs NumFuncs

variable [PyChars]

/-! ### Python -/

/-- A list of numbers. -/
def nums (l : List ℝ) : PyVal := .list (l.map .num)

omit [PyChars] in
theorem nums_inj {l l' : List ℝ} (h : nums l = nums l') : l = l' := by
  simp only [nums, PyVal.list.injEq] at h
  exact List.map_injective_iff.2 (fun a b hab => by simpa using hab) h

omit [PyChars] in
theorem setAll_eq (s : Env) (ns : List Name) (g : Name → PyVal) (n : Name) :
    s.setAll ns (ns.map g) n = if n ∈ ns then some (g n) else s n := by
  induction ns generalizing s with
  | nil => simp [Env.setAll]
  | cons m ns ih =>
    have : s.setAll (m :: ns) ((m :: ns).map g) = (s.set m (g m)).setAll ns (ns.map g) := rfl
    rw [this, ih]
    by_cases h : n ∈ ns
    · simp [h]
    · rw [if_neg h]
      by_cases hm : n = m
      · subst hm
        simp [Env.set]
      · simp [Env.set, hm, h]

/-- What a target is bound to: a single target gets the whole list. -/
noncomputable def bval (ns : List Name) (ρ : Name → ℝ) (n : Name) : PyVal := if ns.length = 1 then .list [.num (ρ n)] else .num (ρ n)

omit [PyChars] in
theorem assign_eq (s : Env) {ns : List Name} (h : ns ≠ []) (ρ : Name → ℝ) :
    ∃ s', assign s ns (nums (ns.map ρ)) = .ok s' ∧ ∀ n, s' n = if n ∈ ns then some (bval ns ρ n) else s n := by
  match ns, h with
  | [m], _ =>
    refine ⟨_, rfl, fun n => ?_⟩
    by_cases hn : n = m
    · subst hn
      simp [Env.set, bval, nums]
    · simp [Env.set, hn]
  | m :: m' :: ns, _ =>
    refine ⟨s.setAll (m :: m' :: ns) ((m :: m' :: ns).map fun n => .num (ρ n)), ?_, fun n => ?_⟩
    · unfold assign nums
      simp [Function.comp_def]
    · rw [setAll_eq]
      simp [bval]

omit [PyChars] in
theorem unpackPy_nums {s : Env} (hs : s "unpack".toList = none) (l : List ℝ) : unpackPy s (nums l) = .ok (nums l) := by
  unfold unpackPy nums
  rw [if_neg (by rw [hs]; simp)]
  dsimp only
  rw [if_pos]
  simp [PyVal.isNum]

omit [PyChars] in
theorem exec_unpack {s : Env} {ns : List Name} (h : ns ≠ []) {arg : Name} (ρ : Name → ℝ) (ha : s arg = some (nums (ns.map ρ)))
    (hs : s "unpack".toList = none) :
    ∃ s', exec s (.unpack ns arg) = .ok s' ∧ ∀ n, s' n = if n ∈ ns then some (bval ns ρ n) else s n := by
  obtain ⟨s', h1, h2⟩ := assign_eq s h ρ
  refine ⟨s', ?_, h2⟩
  simp only [exec, Env.get, ha, bind, Except.bind, unpackPy_nums hs, h1]

omit [PyChars] in
theorem exec_assign {s : Env} {ns : List Name} (h : ns ≠ []) {arg : Name} (ρ : Name → ℝ) (ha : s arg = some (nums (ns.map ρ))) :
    ∃ s', exec s (.assign ns arg) = .ok s' ∧ ∀ n, s' n = if n ∈ ns then some (bval ns ρ n) else s n := by
  obtain ⟨s', h1, h2⟩ := assign_eq s h ρ
  refine ⟨s', ?_, h2⟩
  simp only [exec, Env.get, ha, bind, Except.bind, h1]

/-- The value of an expression depends on its symbols and on the name of the module. -/
theorem evalPy_congr {s s' : Env} {mod : Option Name} (hm : ∀ m, mod = some m → s m = s' m) (e : Expr)
    (h : ∀ n, .sym n ∈ e.atoms → s n = s' n) : evalPy s mod e = evalPy s' mod e := by
  induction e with
  | num c => rfl
  | atom q =>
    cases q with
    | sym n => simp only [evalPy, Env.get, h n (by simp [Expr.atoms])]
    | dyn n k => rfl
  | add a b ha hb =>
    simp only [evalPy, ha fun n hn => h n (by simp [Expr.atoms, hn]), hb fun n hn => h n (by simp [Expr.atoms, hn])]
  | mul a b ha hb =>
    simp only [evalPy, ha fun n hn => h n (by simp [Expr.atoms, hn]), hb fun n hn => h n (by simp [Expr.atoms, hn])]
  | fn g a ha =>
    have : ∀ v, applyFn s mod g v = applyFn s' mod g v := by
      intro v
      unfold applyFn
      cases mod with
      | none => rfl
      | some m => simp only [Option.any_some, hm m rfl]
    simp only [evalPy, ha fun n hn => h n (by simpa [Expr.atoms] using hn), this]

/-- Python computes the value of a printed expression of numbers. -/
theorem evalPy_eq {s : Env} {mod : Option Name} (hm : ∀ m, mod = some m → s m = none) (e : Expr) (ρ : Name → ℝ)
    (h : ∀ q ∈ e.atoms, ∃ n, q = .sym n ∧ s n = some (.num (ρ n))) : evalPy s mod e = .ok (.num (e.eval (symValues ρ))) := by
  induction e with
  | num c => rfl
  | atom q =>
    obtain ⟨n, rfl, hn⟩ := h q (by simp [Expr.atoms])
    simp only [evalPy, Env.get, hn]
    rfl
  | add a b ha hb =>
    simp only [evalPy, ha fun q hq => h q (by simp [Expr.atoms, hq]), hb fun q hq => h q (by simp [Expr.atoms, hq]), bind, Except.bind]
    rfl
  | mul a b ha hb =>
    simp only [evalPy, ha fun q hq => h q (by simp [Expr.atoms, hq]), hb fun q hq => h q (by simp [Expr.atoms, hq]), bind, Except.bind]
    rfl
  | fn g a ha =>
    simp only [evalPy, ha fun q hq => h q (by simpa [Expr.atoms] using hq), bind, Except.bind, applyFn]
    rw [if_neg]
    · rfl
    · cases mod with
      | none => simp
      | some m => simp [hm m rfl]

/-- The lines with results, after `result = [...]`. -/
theorem exec_appends {s : Env} {l : List PyVal} (hr : s "result".toList = some (.list l)) (es : List Printed)
    (hn : ∀ e ∈ es, .sym "result".toList ∉ e.expr.atoms ∧ e.mod ≠ some "result".toList) :
    (∀ s', (es.map Stmt.append).foldlM exec s = .ok s' → ∃ ws, s' "result".toList = some (.list (l ++ ws)) ∧
      List.Forall₂ (fun e w => evalPy s e.mod e.expr = .ok w) es ws) ∧
    (∀ ws, List.Forall₂ (fun e w => evalPy s e.mod e.expr = .ok w) es ws → ∃ s', (es.map Stmt.append).foldlM exec s = .ok s' ∧
      s' "result".toList = some (.list (l ++ ws))) := by
  induction es generalizing s l with
  | nil =>
    refine ⟨fun s' h => ?_, fun ws h => ?_⟩
    · cases h
      exact ⟨[], by simpa using hr, .nil⟩
    · cases h
      exact ⟨s, rfl, by simpa using hr⟩
  | cons e es ih =>
    have hstep : exec s (.append e) = (evalPy s e.mod e.expr).map fun w => s.set "result".toList (.list (l ++ [w])) := by
      simp only [exec, Env.get, hr, bind, Except.bind]
      cases evalPy s e.mod e.expr <;> rfl
    have hcg : ∀ w, ∀ e' ∈ es, evalPy (s.set "result".toList (.list (l ++ [w]))) e'.mod e'.expr = evalPy s e'.mod e'.expr := by
      intro w e' he'
      obtain ⟨h1, h2⟩ := hn e' (by simp [he'])
      refine evalPy_congr (fun m hm => ?_) _ fun n hmem => ?_
      · have : m ≠ "result".toList := fun hc => h2 (by rw [hm, hc])
        simp only [Env.set, if_neg this]
      · have : n ≠ "result".toList := fun hc => h1 (hc ▸ hmem)
        simp only [Env.set, if_neg this]
    have hres : ∀ w, (s.set "result".toList (.list (l ++ [w]))) "result".toList = some (.list (l ++ [w])) := by
      intro w
      simp only [Env.set, if_true]
    constructor
    · intro s' h
      rw [List.map_cons, List.foldlM_cons, hstep] at h
      cases hw : evalPy s e.mod e.expr with
      | error x => simp [hw, Except.map, bind, Except.bind] at h
      | ok w =>
        simp only [hw, Except.map, bind, Except.bind] at h
        obtain ⟨ws, h1, h2⟩ := (ih (hres w) fun e' he' => hn e' (by simp [he'])).1 s' h
        refine ⟨w :: ws, by rw [h1]; simp, .cons hw ?_⟩
        refine (List.forall₂_iff_get.2 ⟨h2.length_eq, fun i hi hj => ?_⟩)
        have := (List.forall₂_iff_get.1 h2).2 i hi hj
        rwa [hcg w _ (List.get_mem _ _)] at this
    · intro ws h
      cases h with
      | @cons _ w _ ws hw hws =>
        obtain ⟨s', h1, h2⟩ := (ih (hres w) fun e' he' => hn e' (by simp [he'])).2 ws (by
          refine (List.forall₂_iff_get.2 ⟨hws.length_eq, fun i hi hj => ?_⟩)
          rw [hcg w _ (List.get_mem _ _)]
          exact (List.forall₂_iff_get.1 hws).2 i hi hj)
        refine ⟨s', ?_, by rw [h2]; simp⟩
        rw [List.map_cons, List.foldlM_cons, hstep, hw]
        exact h1

/-! ### Printers -/

omit [PyChars] in
theorem subNumpy_eq (new : Name) {k : ℕ} {n : Name} (h : ¬"numpy".toList <:+: n) : subNumpy new k n = n := by
  induction k generalizing n with
  | zero => rfl
  | succ k ih =>
    match n with
    | [] => rfl
    | c :: t =>
      unfold subNumpy
      rw [if_neg, ih fun hc => h (hc.trans (List.suffix_cons c t).isInfix)]
      intro hc
      exact h (List.isPrefixOf_iff_prefix.1 hc).isInfix

theorem mapSymbols_eq (f : Name → Name) (e : Expr) (h : ∀ n, .sym n ∈ e.atoms → f n = n) : mapSymbols f e = e := by
  induction e with
  | num c => rfl
  | atom q =>
    cases q with
    | sym n => simp only [mapSymbols, h n (by simp [Expr.atoms])]
    | dyn n k => rfl
  | add a b ha hb =>
    simp only [mapSymbols, ha fun n hn => h n (by simp [Expr.atoms, hn]), hb fun n hn => h n (by simp [Expr.atoms, hn])]
  | mul a b ha hb =>
    simp only [mapSymbols, ha fun n hn => h n (by simp [Expr.atoms, hn]), hb fun n hn => h n (by simp [Expr.atoms, hn])]
  | fn g a ha => simp only [mapSymbols, ha fun n hn => h n (by simpa [Expr.atoms] using hn)]

/-- The module of a flavour. -/
def moduleOf (flavour : String) : Option Name :=
  if flavour = "numpy" then some "numpy".toList else if flavour = "np" then some "np".toList
  else if flavour = "casadi" then some "cas".toList else none

/-- A name that the text does not use otherwise. -/
structure FreeName (flavour : String) (n : Name) : Prop where
  numpy : ¬"numpy".toList <:+: n
  local' : n ∉ ["x".toList, "u".toList, "params".toList, "result".toList, "unpack".toList]
  mod : moduleOf flavour ≠ some n

theorem printer_eq (flavour : String) {e : Expr} (h : ∀ n, .sym n ∈ e.atoms → ¬"numpy".toList <:+: n) :
    printerFunction flavour e = ⟨e, moduleOf flavour⟩ := by
  have hs : ∀ new, mapSymbols (fun n => subNumpy new n.length n) e = e := fun new =>
    mapSymbols_eq _ e fun n hn => subNumpy_eq new (h n hn)
  unfold printerFunction moduleOf
  split
  · rfl
  · split
    · rw [hs]
    · split
      · rw [hs]
      · rfl

omit [PyChars] in
theorem module_local (flavour : String) {m : Name} (h : moduleOf flavour = some m) :
    m ∉ ["x".toList, "u".toList, "params".toList, "result".toList, "unpack".toList] := by
  unfold moduleOf at h
  split at h
  · cases h; decide
  · split at h
    · cases h; decide
    · split at h
      · cases h; decide
      · cases h

/-! ### The arguments -/

omit [PyChars] in
theorem setAll_other (s : Env) (ns : List Name) (vs : List PyVal) {n : Name} (h : n ∉ ns) : s.setAll ns vs n = s n := by
  induction ns generalizing s vs with
  | nil => simp [Env.setAll]
  | cons m ns ih =>
    cases vs with
    | nil => simp [Env.setAll]
    | cons v vs =>
      have : s.setAll (m :: ns) (v :: vs) = (s.set m v).setAll ns vs := rfl
      rw [this, ih _ _ fun hc => h (List.mem_cons_of_mem _ hc)]
      have hm : n ≠ m := fun hc => h (hc ▸ List.mem_cons_self)
      simp only [Env.set, if_neg hm]

omit [PyChars] in
theorem ifAny_pos {A : Type} {l : List Name} (h : l ≠ []) (x : A) : ifAny l x = [x] := if_pos (List.length_pos_of_ne_nil h)

omit [PyChars] in
/-- The variables at the start of the function. -/
theorem initial_eq (X U P : List Name) (x u p : PyVal) (s : Env)
    (hs : s = Env.setAll (fun _ => none) (ifAny X "x".toList ++ ifAny U "u".toList ++ ifAny P "params".toList)
      (ifAny X x ++ ifAny U u ++ ifAny P p)) :
    (X ≠ [] → s "x".toList = some x) ∧ (U ≠ [] → s "u".toList = some u) ∧ (P ≠ [] → s "params".toList = some p) ∧
      ∀ n, n ∉ ["x".toList, "u".toList, "params".toList] → s n = none := by
  subst hs
  refine ⟨fun h => ?_, fun h => ?_, fun h => ?_, fun n hn => ?_⟩
  · rw [ifAny_pos h, ifAny_pos h]
    by_cases hU : U = [] <;> by_cases hP : P = [] <;> simp [ifAny, Env.setAll, Env.set, hU, hP, List.length_pos_iff]
  · rw [ifAny_pos h, ifAny_pos h]
    by_cases hX : X = [] <;> by_cases hP : P = [] <;> simp [ifAny, Env.setAll, Env.set, hX, hP, List.length_pos_iff]
  · rw [ifAny_pos h, ifAny_pos h]
    by_cases hX : X = [] <;> by_cases hU : U = [] <;> simp [ifAny, Env.setAll, Env.set, hX, hU, List.length_pos_iff]
  · rw [setAll_other]
    intro hc
    apply hn
    simp only [ifAny, List.mem_append] at hc
    rcases hc with (hc | hc) | hc <;> split at hc <;> simp at hc <;> simp [hc]

/-- The lines that name the arguments. -/
theorem exec_groups {s : Env} {X U P : List Name}
    (hfree : ∀ n ∈ X ++ U ++ P, n ∉ ["x".toList, "u".toList, "params".toList, "result".toList, "unpack".toList]) (ρ : Name → ℝ)
    (hx : X ≠ [] → s "x".toList = some (nums (X.map ρ))) (hu : U ≠ [] → s "u".toList = some (nums (U.map ρ)))
    (hp : P ≠ [] → s "params".toList = some (nums (P.map ρ))) (hs : s "unpack".toList = none) :
    ∃ s', (ifAny X (Stmt.unpack X "x".toList) ++ ifAny U (Stmt.unpack U "u".toList) ++ ifAny P (Stmt.assign P "params".toList)).foldlM exec s = .ok s' ∧
      ∀ n, s' n = if n ∈ P then some (bval P ρ n) else if n ∈ U then some (bval U ρ n) else if n ∈ X then some (bval X ρ n) else s n := by
  have hloc : ∀ m ∈ ["x".toList, "u".toList, "params".toList, "result".toList, "unpack".toList], m ∉ X ∧ m ∉ U := by
    intro m hm
    refine ⟨fun hc => hfree m (by simp [hc]) hm, fun hc => hfree m (by simp [hc]) hm⟩
  obtain ⟨s1, e1, h1⟩ : ∃ s1, (ifAny X (Stmt.unpack X "x".toList)).foldlM exec s = .ok s1 ∧
      ∀ n, s1 n = if n ∈ X then some (bval X ρ n) else s n := by
    by_cases hX : X = []
    · subst hX
      exact ⟨s, rfl, fun n => by simp⟩
    · obtain ⟨s1, e1, h1⟩ := exec_unpack hX ρ (hx hX) hs
      refine ⟨s1, ?_, h1⟩
      rw [ifAny_pos hX]
      simp only [List.foldlM_cons, List.foldlM_nil, e1, bind, Except.bind, pure, Except.pure]
  have hs1 : ∀ m ∈ ["x".toList, "u".toList, "params".toList, "result".toList, "unpack".toList], s1 m = s m := by
    intro m hm
    rw [h1, if_neg (hloc m hm).1]
  obtain ⟨s2, e2, h2⟩ : ∃ s2, (ifAny U (Stmt.unpack U "u".toList)).foldlM exec s1 = .ok s2 ∧
      ∀ n, s2 n = if n ∈ U then some (bval U ρ n) else s1 n := by
    by_cases hU : U = []
    · subst hU
      exact ⟨s1, rfl, fun n => by simp⟩
    · obtain ⟨s2, e2, h2⟩ := exec_unpack (s := s1) (arg := "u".toList) hU ρ (by rw [hs1 _ (by simp)]; exact hu hU) (by rw [hs1 _ (by simp)]; exact hs)
      refine ⟨s2, ?_, h2⟩
      rw [ifAny_pos hU]
      simp only [List.foldlM_cons, List.foldlM_nil, e2, bind, Except.bind, pure, Except.pure]
  have hs2 : ∀ m ∈ ["x".toList, "u".toList, "params".toList, "result".toList, "unpack".toList], s2 m = s m := by
    intro m hm
    rw [h2, if_neg (hloc m hm).2, hs1 m hm]
  obtain ⟨s3, e3, h3⟩ : ∃ s3, (ifAny P (Stmt.assign P "params".toList)).foldlM exec s2 = .ok s3 ∧
      ∀ n, s3 n = if n ∈ P then some (bval P ρ n) else s2 n := by
    by_cases hP : P = []
    · subst hP
      exact ⟨s2, rfl, fun n => by simp⟩
    · obtain ⟨s3, e3, h3⟩ := exec_assign (s := s2) (arg := "params".toList) hP ρ (by rw [hs2 _ (by simp)]; exact hp hP)
      refine ⟨s3, ?_, h3⟩
      rw [ifAny_pos hP]
      simp only [List.foldlM_cons, List.foldlM_nil, e3, bind, Except.bind, pure, Except.pure]
  refine ⟨s3, ?_, fun n => by rw [h3, h2, h1]⟩
  simp only [List.foldlM_append, e1, e2, bind, Except.bind]
  exact e3

/-- Those lines are Python. -/
theorem groups_right (X U P : List Name) :
    (ifAny X (Stmt.unpack X "x".toList) ++ ifAny U (Stmt.unpack U "u".toList) ++ ifAny P (Stmt.assign P "params".toList)).any Stmt.wrong = false := by
  rw [List.any_eq_false]
  intro s hs
  simp only [List.mem_append, ifAny] at hs
  rcases hs with (hs | hs) | hs <;> split at hs <;> simp at hs
  · next h =>
    subst hs
    have : X ≠ [] := List.length_pos_iff.1 h
    simp [Stmt.wrong, this]
  · next h =>
    subst hs
    have : U ≠ [] := List.length_pos_iff.1 h
    simp [Stmt.wrong, this]
  · next h =>
    subst hs
    have : P ≠ [] := List.length_pos_iff.1 h
    simp [Stmt.wrong, this]

theorem appends_right (es : List Printed) : (es.map Stmt.append).any Stmt.wrong = false := by
  rw [List.any_eq_false]
  intro s hs
  obtain ⟨e, -, rfl⟩ := List.mem_map.1 hs
  simp [Stmt.wrong]

/-! ### C137: `print_funcs_RHS` -/

/-- What is used of the printed text. -/
theorem print_rhs {q : QVars} (ho : q ≠ .other) (hl : ∀ n ∈ qNames q, Plain n) (hnd : (qNames q).Nodup) {u : UVars}
    (hu : FitU (qNames q) u) (o : SetOrder) {RHS : List Expr} (h : ∀ e ∈ RHS, Named e) (h0 : qNames q ≠ []) (flavour : String) :
    ∃ a f, findArgs o RHS q u false false = .ok a ∧ printFuncsRHS o RHS q u flavour = .ok f ∧
      (a.q ++ a.v ++ a.u ++ a.params).Nodup ∧ a.q.length = (qNames q).length ∧ a.v.length = (qNames q).length ∧
      (∀ e ∈ RHS, ∀ x ∈ (mapAtoms renamed e).atoms, ∃ n ∈ a.q ++ a.v ++ a.u ++ a.params, x = .sym n) ∧
      (a.u = [] ∨ a.params = [] → ∀ vals, f.run vals = .error .syntax) ∧
      (∀ σ ρ, Values σ ρ → a.q.map ρ = (qNames q).map (fun n => σ (.dyn n 0)) ∧ a.v.map ρ = (qNames q).map (fun n => σ (.dyn n 1))) ∧
      (a.u ≠ [] → a.params ≠ [] → (∀ n ∈ a.q ++ a.v ++ a.u ++ a.params, FreeName flavour n) → ∀ ρ : Name → ℝ,
        ∃ s : Env, (∀ n ∈ a.q ++ a.v, s n = some (.num (ρ n))) ∧ (∀ n ∈ a.u, s n = some (bval a.u ρ n)) ∧
          (∀ n ∈ a.params, s n = some (bval a.params ρ n)) ∧ (∀ m, moduleOf flavour = some m → s m = none) ∧
          (∀ r, f.run [nums ((a.q ++ a.v).map ρ), nums (a.u.map ρ), nums (a.params.map ρ)] = .ok r →
            ∃ ws, r = .list ((a.v.map fun n => .num (ρ n)) ++ ws) ∧
              List.Forall₂ (fun e w => evalPy s (moduleOf flavour) (mapAtoms renamed e) = .ok w) RHS ws) ∧
          ∀ ws, List.Forall₂ (fun e w => evalPy s (moduleOf flavour) (mapAtoms renamed e) = .ok w) RHS ws →
            f.run [nums ((a.q ++ a.v).map ρ), nums (a.u.map ρ), nums (a.params.map ρ)] =
              .ok (.list ((a.v.map fun n => .num (ρ n)) ++ ws))) := by
  obtain ⟨a, ha, h1, h2, h3, h4, h5, -, h7, h8⟩ := args_ok ho hl hnd hu false false o h
  rw [h7 rfl, h8 rfl, List.append_nil, List.append_nil] at h1 h4
  have hpos : 0 < (qNames q).length := List.length_pos_of_ne_nil h0
  have hv0 : a.v ≠ [] := List.length_pos_iff.1 (by omega)
  have hX0 : a.q ++ a.v ≠ [] := by simp [hv0]
  obtain ⟨es, hes⟩ : ∃ es, es = (RHS.map (mapAtoms renamed)).map (printerFunction flavour) := ⟨_, rfl⟩
  obtain ⟨f, hf⟩ : ∃ f : PyFun, f = ⟨["x".toList, "u".toList, "params".toList],
      [.unpack (a.q ++ a.v) "x".toList, .unpack a.u "u".toList, .assign a.params "params".toList, .start a.v] ++ es.map Stmt.append⟩ := ⟨_, rfl⟩
  refine ⟨a, f, ha, ?_, h1, h2, h3, h4, ?_, fun σ ρ hρ => ⟨(h5 σ ρ hρ).1, (h5 σ ρ hρ).2.1⟩, ?_⟩
  · simp only [printFuncsRHS, renameAll_eq o h, findArgs_again o h, ha, bind, Except.bind, pure, Except.pure]
    rw [hf, hes]
    simp only [List.map_map]
    rfl
  · intro hemp vals
    unfold PyFun.run
    rw [if_pos]
    rw [hf]
    rcases hemp with he | he <;> simp [he, Stmt.wrong]
  · intro hu0 hp0 hfree ρ
    have hfr : ∀ n ∈ (a.q ++ a.v) ++ a.u ++ a.params, n ∉ ["x".toList, "u".toList, "params".toList, "result".toList, "unpack".toList] :=
      fun n hn => (hfree n hn).local'
    obtain ⟨s0, hs0⟩ : ∃ s0, s0 = Env.setAll (fun _ => none) f.args [nums ((a.q ++ a.v).map ρ), nums (a.u.map ρ), nums (a.params.map ρ)] := ⟨_, rfl⟩
    obtain ⟨i1, i2, i3, i4⟩ := initial_eq (a.q ++ a.v) a.u a.params (nums ((a.q ++ a.v).map ρ)) (nums (a.u.map ρ)) (nums (a.params.map ρ)) s0 (by
      rw [hs0, hf, ifAny_pos hX0, ifAny_pos hu0, ifAny_pos hp0, ifAny_pos hX0, ifAny_pos hu0, ifAny_pos hp0]
      rfl)
    obtain ⟨s, e3, hs⟩ := exec_groups (s := s0) hfr ρ i1 i2 i3 (i4 _ (by decide))
    rw [ifAny_pos hX0, ifAny_pos hu0, ifAny_pos hp0] at e3
    rw [List.nodup_append] at h1
    obtain ⟨hd1, -, hd2⟩ := h1
    rw [List.nodup_append] at hd1
    have g1 : ∀ n ∈ a.q ++ a.v, s n = some (.num (ρ n)) := by
      intro n hn
      rw [hs, if_neg fun hc => hd2 n (List.mem_append_left _ hn) n hc rfl, if_neg fun hc => hd1.2.2 n hn n hc rfl, if_pos hn, bval, if_neg]
      rw [List.length_append]
      omega
    have g2 : ∀ n ∈ a.u, s n = some (bval a.u ρ n) := by
      intro n hn
      rw [hs, if_neg fun hc => hd2 n (List.mem_append_right _ hn) n hc rfl, if_pos hn]
    have g3 : ∀ n ∈ a.params, s n = some (bval a.params ρ n) := by
      intro n hn
      rw [hs, if_pos hn]
    have g0 : ∀ m, m ∉ a.q ++ a.v ++ a.u ++ a.params → s m = s0 m := by
      intro m hm
      simp only [List.mem_append, not_or] at hm
      rw [hs, if_neg hm.2, if_neg hm.1.2, if_neg (by simp [hm.1.1])]
    have g4 : ∀ m, moduleOf flavour = some m → s m = none := by
      intro m hm
      rw [g0 m fun hc => (hfree m hc).mod hm]
      refine i4 m fun hc => module_local flavour hm ?_
      simp only [List.mem_cons, List.not_mem_nil, or_false] at hc ⊢
      rcases hc with hc | hc | hc <;> simp [hc]
    -- the line `result = [...]`
    obtain ⟨s4, hs4⟩ : ∃ s4, s4 = s.set "result".toList (.list (a.v.map fun n => .num (ρ n))) := ⟨_, rfl⟩
    have e4 : exec s (.start a.v) = .ok s4 := by
      have : a.v.mapM s.get = .ok (a.v.map fun n => .num (ρ n)) := Exc.mapM_eq fun n hn => by
        simp only [Env.get, g1 n (List.mem_append_right _ hn)]
      simp only [exec, this, bind, Except.bind, pure, Except.pure, hs4]
    have hr4 : s4 "result".toList = some (.list (a.v.map fun n => .num (ρ n))) := by rw [hs4]; simp only [Env.set, if_true]
    have hnump : ∀ e ∈ RHS.map (mapAtoms renamed), printerFunction flavour e = ⟨e, moduleOf flavour⟩ := by
      intro e he
      obtain ⟨e', he', rfl⟩ := List.mem_map.1 he
      refine printer_eq flavour fun n hn => ?_
      obtain ⟨m, hm, hc⟩ := h4 e' he' _ hn
      cases hc
      exact (hfree n hm).numpy
    have hes' : es = RHS.map fun e => ⟨mapAtoms renamed e, moduleOf flavour⟩ := by
      rw [hes, List.map_map]
      exact List.map_congr_left fun e he => hnump _ (List.mem_map.2 ⟨e, he, rfl⟩)
    have hres : ∀ e ∈ es, .sym "result".toList ∉ e.expr.atoms ∧ e.mod ≠ some "result".toList := by
      intro e he
      rw [hes'] at he
      obtain ⟨e', he', rfl⟩ := List.mem_map.1 he
      refine ⟨fun hc => ?_, fun hc => module_local flavour hc (by simp)⟩
      obtain ⟨m, hm, hc⟩ := h4 e' he' _ hc
      cases hc
      exact hfr _ hm (by simp)
    have hcg : ∀ e ∈ RHS, evalPy s4 (moduleOf flavour) (mapAtoms renamed e) = evalPy s (moduleOf flavour) (mapAtoms renamed e) := by
      intro e he
      refine evalPy_congr (fun m hm => ?_) _ fun n hn => ?_
      · have : m ≠ "result".toList := fun hc => module_local flavour hm (by simp [hc])
        rw [hs4]
        simp only [Env.set, if_neg this]
      · obtain ⟨m, hm, hc⟩ := h4 e he _ hn
        cases hc
        have : n ≠ "result".toList := fun hc => hfr _ hm (by simp [hc])
        rw [hs4]
        simp only [Env.set, if_neg this]
    have hrun : f.run [nums ((a.q ++ a.v).map ρ), nums (a.u.map ρ), nums (a.params.map ρ)] =
        ((es.map Stmt.append).foldlM exec s4).bind fun s' => s'.get "result".toList := by
      unfold PyFun.run
      have w1 := groups_right (a.q ++ a.v) a.u a.params
      rw [ifAny_pos hX0, ifAny_pos hu0, ifAny_pos hp0] at w1
      have hb : f.body = (([.unpack (a.q ++ a.v) "x".toList] ++ [.unpack a.u "u".toList] ++ [.assign a.params "params".toList]) ++ [.start a.v]) ++
        es.map Stmt.append := by rw [hf]; rfl
      rw [if_neg, if_neg (by rw [hf]; simp), ← hs0, hb]
      · simp only [List.foldlM_append, bind] at e3 ⊢
        simp only [Except.bind] at e3 ⊢
        rw [e3]
        simp only [List.foldlM_cons, List.foldlM_nil, e4, bind, Except.bind, pure, Except.pure]
      · rw [hb, List.any_append, List.any_append, w1, appends_right]
        simp [Stmt.wrong, hv0]
    obtain ⟨p1, p2⟩ := exec_appends hr4 es hres
    refine ⟨s, g1, g2, g3, g4, fun r hr => ?_, fun ws hws => ?_⟩
    · rw [hrun] at hr
      cases hfo : (es.map Stmt.append).foldlM exec s4 with
      | error e => simp [hfo, Except.bind] at hr
      | ok s' =>
        obtain ⟨ws, q1, q2⟩ := p1 s' hfo
        simp only [hfo, Except.bind, Env.get, q1, Except.ok.injEq] at hr
        refine ⟨ws, hr.symm, ?_⟩
        rw [hes', List.forall₂_map_left_iff] at q2
        exact (List.forall₂_iff_get.2 ⟨q2.length_eq, fun i hi hj => by
          rw [← hcg _ (List.get_mem _ _)]
          exact (List.forall₂_iff_get.1 q2).2 i hi hj⟩)
    · obtain ⟨s', q1, q2⟩ := p2 ws (by
        rw [hes', List.forall₂_map_left_iff]
        exact (List.forall₂_iff_get.2 ⟨hws.length_eq, fun i hi hj => by
          dsimp only
          rw [hcg _ (List.get_mem _ _)]
          exact (List.forall₂_iff_get.1 hws).2 i hi hj⟩))
      rw [hrun, q1]
      simp only [Except.bind, Env.get, q2]

/-- The values of the expressions, when every symbol is bound to its number. -/
theorem forall₂_values {s : Env} {mod : Option Name} (hm : ∀ m, mod = some m → s m = none) {es : List Expr} (h : ∀ e ∈ es, Named e)
    {σ : Quantity → ℝ} {ρ : Name → ℝ} (hρ : Values σ ρ)
    (hs : ∀ e ∈ es, ∀ x ∈ (mapAtoms renamed e).atoms, ∃ n, x = .sym n ∧ s n = some (.num (ρ n))) :
    List.Forall₂ (fun e w => evalPy s mod (mapAtoms renamed e) = .ok w) es (es.map fun e => .num (e.eval σ)) := by
  rw [List.forall₂_map_right_iff, List.forall₂_same]
  intro e he
  rw [evalPy_eq hm _ ρ (hs e he)]
  congr 2
  exact eval_renamed (h e he) hρ

/-- C137. The text that `print_funcs_RHS` prints defines a function that returns the derivatives of the state for its values, when there are
at least two controls and two parameters and no symbol has a name of the text. -/
theorem C137_partial {q : QVars} (ho : q ≠ .other) (hl : ∀ n ∈ qNames q, Plain n) (hnd : (qNames q).Nodup) {u : UVars}
    (hu : FitU (qNames q) u) (o : SetOrder) {RHS : List Expr} (h : ∀ e ∈ RHS, Named e) (h0 : qNames q ≠ []) (flavour : String) :
    ∃ a f, findArgs o RHS q u false false = .ok a ∧ printFuncsRHS o RHS q u flavour = .ok f ∧
      (2 ≤ a.u.length → 2 ≤ a.params.length → (∀ n ∈ a.q ++ a.v ++ a.u ++ a.params, FreeName flavour n) →
        ∀ σ ρ, Values σ ρ →
          f.run [nums ((qNames q).map (fun n => σ (.dyn n 0)) ++ (qNames q).map (fun n => σ (.dyn n 1))), nums (a.u.map ρ),
              nums (a.params.map ρ)] =
            .ok (nums ((qNames q).map (fun n => σ (.dyn n 1)) ++ RHS.map fun e => e.eval σ))) := by
  obtain ⟨a, f, ha, hf, -, -, -, h4, -, h5, h6⟩ := print_rhs ho hl hnd hu o h h0 flavour
  refine ⟨a, f, ha, hf, fun hu2 hp2 hfree σ ρ hρ => ?_⟩
  obtain ⟨s, g1, g2, g3, g4, -, g6⟩ := h6 (fun hc => by simp [hc] at hu2) (fun hc => by simp [hc] at hp2) hfree ρ
  have key := g6 _ (forall₂_values g4 h hρ (fun e he x hx => ?_))
  · rw [List.map_append, (h5 σ ρ hρ).1, (h5 σ ρ hρ).2] at key
    rw [key]
    simp only [nums, List.map_append, List.map_map, ← (h5 σ ρ hρ).2]
    rfl
  · obtain ⟨n, hn, rfl⟩ := h4 e he x hx
    refine ⟨n, rfl, ?_⟩
    rw [List.mem_append, List.mem_append] at hn
    rcases hn with (hn | hn) | hn
    · exact g1 n hn
    · rw [g2 n hn, bval, if_neg (by omega)]
    · rw [g3 n hn, bval, if_neg (by omega)]

/-- C137. Without controls, or without parameters, the text is not Python. -/
theorem C137_syntax_refuted {q : QVars} (ho : q ≠ .other) (hl : ∀ n ∈ qNames q, Plain n) (hnd : (qNames q).Nodup) {u : UVars}
    (hu : FitU (qNames q) u) (o : SetOrder) {RHS : List Expr} (h : ∀ e ∈ RHS, Named e) (h0 : qNames q ≠ []) (flavour : String) :
    ∃ a f, findArgs o RHS q u false false = .ok a ∧ printFuncsRHS o RHS q u flavour = .ok f ∧
      (a.u = [] ∨ a.params = [] → ∀ vals, f.run vals = .error .syntax) := by
  obtain ⟨a, f, ha, hf, -, -, -, -, h5, -⟩ := print_rhs ho hl hnd hu o h h0 flavour
  exact ⟨a, f, ha, hf, h5⟩

/-- C137. With just one control, an acceleration that is the control is printed as a name that is bound to the whole list: what the function
returns is not a list of numbers. -/
theorem C137_one_refuted {q : QVars} (ho : q ≠ .other) (hl : ∀ n ∈ qNames q, Plain n) (hnd : (qNames q).Nodup) {u : UVars}
    (hu : FitU (qNames q) u) (o : SetOrder) {RHS : List Expr} (h : ∀ e ∈ RHS, Named e) (h0 : qNames q ≠ []) (flavour : String) :
    ∃ a f, findArgs o RHS q u false false = .ok a ∧ printFuncsRHS o RHS q u flavour = .ok f ∧
      ∀ c, a.u = [c] → a.params ≠ [] → (∀ n ∈ a.q ++ a.v ++ a.u ++ a.params, FreeName flavour n) →
        (∃ e ∈ RHS, mapAtoms renamed e = .atom (.sym c)) →
        ∀ ρ l, f.run [nums ((a.q ++ a.v).map ρ), nums (a.u.map ρ), nums (a.params.map ρ)] ≠ .ok (nums l) := by
  obtain ⟨a, f, ha, hf, -, -, -, -, -, -, h6⟩ := print_rhs ho hl hnd hu o h h0 flavour
  refine ⟨a, f, ha, hf, fun c hc hp hfree ⟨e, he, hec⟩ ρ l hr => ?_⟩
  obtain ⟨s, -, g2, -, -, g5, -⟩ := h6 (by simp [hc]) hp hfree ρ
  obtain ⟨ws, q1, q2⟩ := g5 _ hr
  obtain ⟨w, hw, hew⟩ : ∃ w ∈ ws, evalPy s (moduleOf flavour) (mapAtoms renamed e) = .ok w := by
    obtain ⟨i, hi, rfl⟩ := List.mem_iff_getElem.1 he
    have := q2.length_eq
    exact ⟨ws[i]'(by omega), List.getElem_mem _, (List.forall₂_iff_get.1 q2).2 i hi (by omega)⟩
  rw [hec] at hew
  have hgc := g2 c (by simp [hc])
  rw [bval, if_pos (by simp [hc])] at hgc
  simp only [evalPy, Env.get, hgc, Except.ok.injEq] at hew
  simp only [nums, PyVal.list.injEq] at q1
  have : w ∈ l.map PyVal.num := by rw [q1]; exact List.mem_append_right _ hw
  obtain ⟨r, -, hr⟩ := List.mem_map.1 this
  rw [← hew] at hr
  cases hr

/-! ### C138: `print_funcs` -/

/-- The value that the lines with the results leave. -/
theorem exec_results {s : Env} {flavour : String} {es : List Expr} (hmod : ∀ m, moduleOf flavour = some m → s m = none)
    (hn : ∀ e ∈ es, ∀ n, .sym n ∈ e.atoms → FreeName flavour n) :
    (∀ ws, List.Forall₂ (fun e w => evalPy s (moduleOf flavour) e = .ok w) es ws →
      (((resultLines flavour es).foldlM exec s).bind fun s' => s'.get "result".toList) =
        .ok (match ws with | [w] => w | ws => .list ws)) ∧
    (∀ r, (((resultLines flavour es).foldlM exec s).bind fun s' => s'.get "result".toList) = .ok r →
      ∃ ws, List.Forall₂ (fun e w => evalPy s (moduleOf flavour) e = .ok w) es ws ∧ r = match ws with | [w] => w | ws => .list ws) := by
  have hpr : ∀ e ∈ es, printerFunction flavour e = ⟨e, moduleOf flavour⟩ := fun e he => printer_eq flavour fun n hn' => (hn e he n hn').numpy
  obtain ⟨s4, hs4⟩ : ∃ s4, s4 = s.set "result".toList (.list []) := ⟨_, rfl⟩
  have hcg : ∀ e ∈ es, evalPy s4 (moduleOf flavour) e = evalPy s (moduleOf flavour) e := by
    intro e he
    refine evalPy_congr (fun m hm => ?_) _ fun n hn' => ?_
    · have : m ≠ "result".toList := fun hc => module_local flavour hm (by simp [hc])
      rw [hs4]
      simp only [Env.set, if_neg this]
    · have : n ≠ "result".toList := fun hc => (hn e he n hn').local' (by simp [hc])
      rw [hs4]
      simp only [Env.set, if_neg this]
  have hmany : (es.length ≠ 1) → resultLines flavour es = .empty :: (es.map fun e => (⟨e, moduleOf flavour⟩ : Printed)).map Stmt.append := by
    intro h1
    have : resultLines flavour es = .empty :: es.map fun e => .append (printerFunction flavour e) := by
      match es with
      | [] => rfl
      | [e] => simp at h1
      | _ :: _ :: _ => rfl
    rw [this, List.map_map]
    congr 1
    exact List.map_congr_left fun e he => by simp only [hpr e he, Function.comp]
  have hres : ∀ e ∈ es.map fun e => (⟨e, moduleOf flavour⟩ : Printed), .sym "result".toList ∉ e.expr.atoms ∧ e.mod ≠ some "result".toList := by
    intro e he
    obtain ⟨e', he', rfl⟩ := List.mem_map.1 he
    exact ⟨fun hc => (hn e' he' _ hc).local' (by simp), fun hc => module_local flavour hc (by simp)⟩
  have hr4 : s4 "result".toList = some (.list []) := by rw [hs4]; simp only [Env.set, if_true]
  obtain ⟨p1, p2⟩ := exec_appends hr4 _ hres
  by_cases h1 : es.length = 1
  · obtain ⟨e, rfl⟩ := List.length_eq_one_iff.1 h1
    have hb : ∀ w, evalPy s (moduleOf flavour) e = .ok w →
        (((resultLines flavour [e]).foldlM exec s).bind fun s' => s'.get "result".toList) = .ok w := by
      intro w hw
      simp only [resultLines, hpr e (by simp), List.foldlM_cons, List.foldlM_nil, exec, hw, bind, Except.bind, pure, Except.pure, Env.get,
        Env.set, if_true]
    refine ⟨fun ws hws => ?_, fun r hr => ?_⟩
    · obtain ⟨w, ws, hw, hws', rfl⟩ := List.forall₂_cons_left_iff.1 hws
      cases hws'
      exact hb w hw
    · cases hw : evalPy s (moduleOf flavour) e with
      | error err =>
        simp [resultLines, hpr e (by simp), exec, hw, bind, Except.bind] at hr
      | ok w =>
        rw [hb w hw] at hr
        cases hr
        exact ⟨[r], by simp [hw], rfl⟩
  · rw [hmany h1]
    have hrun : (List.foldlM exec s (Stmt.empty :: (es.map fun e => (⟨e, moduleOf flavour⟩ : Printed)).map Stmt.append)) =
        ((es.map fun e => (⟨e, moduleOf flavour⟩ : Printed)).map Stmt.append).foldlM exec s4 := by
      simp only [List.foldlM_cons, exec, bind, Except.bind, hs4]
    rw [hrun]
    have hm1 : ∀ ws : List PyVal, ws.length = es.length → (match ws with | [w] => w | ws => .list ws) = PyVal.list ws := by
      intro ws hws
      match ws with
      | [] => rfl
      | [w] => exact absurd hws.symm h1
      | _ :: _ :: _ => rfl
    refine ⟨fun ws hws => ?_, fun r hr => ?_⟩
    · obtain ⟨s', q1, q2⟩ := p2 ws (by
        rw [List.forall₂_map_left_iff]
        exact (List.forall₂_iff_get.2 ⟨hws.length_eq, fun i hi hj => by
          dsimp only
          rw [hcg _ (List.get_mem _ _)]
          exact (List.forall₂_iff_get.1 hws).2 i hi hj⟩))
      rw [q1, hm1 ws hws.length_eq.symm]
      simp only [Except.bind, Env.get, q2, List.nil_append]
    · cases hfo : ((es.map fun e => (⟨e, moduleOf flavour⟩ : Printed)).map Stmt.append).foldlM exec s4 with
      | error e =>
        rw [hfo] at hr
        cases hr
      | ok s' =>
        obtain ⟨ws, q1, q2⟩ := p1 s' hfo
        simp only [hfo, Except.bind, Env.get, q1, Except.ok.injEq] at hr
        rw [List.forall₂_map_left_iff] at q2
        refine ⟨ws, (List.forall₂_iff_get.2 ⟨q2.length_eq, fun i hi hj => by
          rw [← hcg _ (List.get_mem _ _)]
          exact (List.forall₂_iff_get.1 q2).2 i hi hj⟩), ?_⟩
        rw [hm1 ws q2.length_eq.symm, ← hr, List.nil_append]

/-- What is used of the printed text. -/
theorem print_some {q : QVars} (ho : q ≠ .other) (hl : ∀ n ∈ qNames q, Plain n) (hnd : (qNames q).Nodup) (o : SetOrder)
    {es : List Expr} (h : ∀ e ∈ es, Named e) (flavour : String) :
    ∃ a f, findArgs o es q .none false false = .ok a ∧ printFuncs o es q flavour = .ok f ∧
      (∀ e ∈ es, ∀ x ∈ (mapAtoms renamed e).atoms, ∃ n ∈ a.q ++ a.v ++ a.u ++ a.params, x = .sym n) ∧
      (∀ σ ρ, Values σ ρ → a.q.map ρ = (qNames q).map (fun n => σ (.dyn n 0)) ∧ a.v.map ρ = (qNames q).map (fun n => σ (.dyn n 1))) ∧
      ((∀ n ∈ a.q ++ a.v ++ a.u ++ a.params, FreeName flavour n) → ∀ ρ : Name → ℝ,
        ∃ s : Env, (∀ n ∈ a.q ++ a.v, s n = some (.num (ρ n))) ∧ (∀ n ∈ a.u, s n = some (bval a.u ρ n)) ∧
          (∀ n ∈ a.params, s n = some (bval a.params ρ n)) ∧ (∀ m, moduleOf flavour = some m → s m = none) ∧
          f.run (ifAny (a.q ++ a.v) (nums ((a.q ++ a.v).map ρ)) ++ ifAny a.u (nums (a.u.map ρ)) ++ ifAny a.params (nums (a.params.map ρ))) =
            ((resultLines flavour (es.map (mapAtoms renamed))).foldlM exec s).bind fun s' => s'.get "result".toList) := by
  obtain ⟨a, ha, h1, h2, h3, h4, h5, -, h7, h8⟩ := args_ok ho hl hnd (u := .none) (by trivial) false false o h
  rw [h7 rfl, h8 rfl, List.append_nil, List.append_nil] at h1 h4
  obtain ⟨f, hf⟩ : ∃ f : PyFun, f = ⟨ifAny (a.q ++ a.v) "x".toList ++ ifAny a.u "u".toList ++ ifAny a.params "params".toList,
      (ifAny (a.q ++ a.v) (Stmt.unpack (a.q ++ a.v) "x".toList) ++ ifAny a.u (Stmt.unpack a.u "u".toList) ++
        ifAny a.params (Stmt.assign a.params "params".toList)) ++ resultLines flavour (es.map (mapAtoms renamed))⟩ := ⟨_, rfl⟩
  refine ⟨a, f, ha, ?_, h4, fun σ ρ hρ => ⟨(h5 σ ρ hρ).1, (h5 σ ρ hρ).2.1⟩, ?_⟩
  · simp only [printFuncs, renameAll_eq o h, findArgs_again o h, ha, bind, Except.bind, pure, Except.pure]
    rw [hf, h8 rfl]
    simp [ifAny]
  · intro hfree ρ
    have hfr : ∀ n ∈ (a.q ++ a.v) ++ a.u ++ a.params, n ∉ ["x".toList, "u".toList, "params".toList, "result".toList, "unpack".toList] :=
      fun n hn => (hfree n hn).local'
    obtain ⟨vals, hvals⟩ : ∃ vals, vals = ifAny (a.q ++ a.v) (nums ((a.q ++ a.v).map ρ)) ++ ifAny a.u (nums (a.u.map ρ)) ++
      ifAny a.params (nums (a.params.map ρ)) := ⟨_, rfl⟩
    obtain ⟨s0, hs0⟩ : ∃ s0, s0 = Env.setAll (fun _ => none) f.args vals := ⟨_, rfl⟩
    obtain ⟨i1, i2, i3, i4⟩ := initial_eq (a.q ++ a.v) a.u a.params (nums ((a.q ++ a.v).map ρ)) (nums (a.u.map ρ)) (nums (a.params.map ρ)) s0 (by
      rw [hs0, hf, hvals])
    obtain ⟨s, e3, hs⟩ := exec_groups (s := s0) hfr ρ i1 i2 i3 (i4 _ (by decide))
    rw [List.nodup_append] at h1
    obtain ⟨hd1, -, hd2⟩ := h1
    rw [List.nodup_append] at hd1
    have g0 : ∀ m, m ∉ a.q ++ a.v ++ a.u ++ a.params → s m = s0 m := by
      intro m hm
      simp only [List.mem_append, not_or] at hm
      rw [hs, if_neg hm.2, if_neg hm.1.2, if_neg (by simp [hm.1.1])]
    refine ⟨s, fun n hn => ?_, fun n hn => ?_, fun n hn => ?_, fun m hm => ?_, ?_⟩
    · rw [hs, if_neg fun hc => hd2 n (List.mem_append_left _ hn) n hc rfl, if_neg fun hc => hd1.2.2 n hn n hc rfl, if_pos hn, bval, if_neg]
      rw [List.length_append]
      omega
    · rw [hs, if_neg fun hc => hd2 n (List.mem_append_right _ hn) n hc rfl, if_pos hn]
    · rw [hs, if_pos hn]
    · rw [g0 m fun hc => (hfree m hc).mod hm]
      refine i4 m fun hc => module_local flavour hm ?_
      simp only [List.mem_cons, List.not_mem_nil, or_false] at hc ⊢
      rcases hc with hc | hc | hc <;> simp [hc]
    · rw [← hvals]
      have hlen : vals.length = f.args.length := by
        rw [hvals, hf]
        simp only [List.length_append, ifAny]
        split_ifs <;> rfl
      have hright : ∀ es', (resultLines flavour es').any Stmt.wrong = false := by
        intro es'
        rw [List.any_eq_false]
        intro st hst
        unfold resultLines at hst
        split at hst
        · simp only [List.mem_singleton] at hst
          simp [hst, Stmt.wrong]
        · rcases List.mem_cons.1 hst with rfl | hst
          · simp [Stmt.wrong]
          · obtain ⟨e, -, rfl⟩ := List.mem_map.1 hst
            simp [Stmt.wrong]
      unfold PyFun.run
      rw [if_neg, if_neg (by simp [hlen]), ← hs0, hf]
      · dsimp only
        rw [List.foldlM_append]
        simp only [bind, e3]
        rfl
      · rw [hf]
        dsimp only
        rw [List.any_append, groups_right, hright]
        simp

/-- C138. The text that `print_funcs` prints defines a function of those of the state, the controls and the parameters that there are, which
returns the values of the expressions: a list, or the value when there is just one. Missing: a single control or a single parameter. -/
theorem C138_partial {q : QVars} (ho : q ≠ .other) (hl : ∀ n ∈ qNames q, Plain n) (hnd : (qNames q).Nodup) (o : SetOrder)
    {es : List Expr} (h : ∀ e ∈ es, Named e) (flavour : String) :
    ∃ a f, findArgs o es q .none false false = .ok a ∧ printFuncs o es q flavour = .ok f ∧
      (a.u.length ≠ 1 → a.params.length ≠ 1 → (∀ n ∈ a.q ++ a.v ++ a.u ++ a.params, FreeName flavour n) →
        ∀ σ ρ, Values σ ρ →
          f.run ((if qNames q = [] then [] else
                  [nums ((qNames q).map (fun n => σ (.dyn n 0)) ++ (qNames q).map (fun n => σ (.dyn n 1)))]) ++
                (if a.u = [] then [] else [nums (a.u.map ρ)]) ++ (if a.params = [] then [] else [nums (a.params.map ρ)])) =
            .ok (match es.map fun e => e.eval σ with
              | [r] => .num r
              | rs => nums rs)) := by
  obtain ⟨a, f, ha, hf, h4, h5, h6⟩ := print_some ho hl hnd o h flavour
  refine ⟨a, f, ha, hf, fun hu1 hp1 hfree σ ρ hρ => ?_⟩
  obtain ⟨s, g1, g2, g3, g4, g5⟩ := h6 hfree ρ
  have hany : ∀ (l : List Name) (x : PyVal), ifAny l x = if l = [] then [] else [x] := by
    intro l x
    unfold ifAny
    by_cases hl' : l = [] <;> simp [hl', List.length_pos_iff]
  have hX : a.q ++ a.v = [] ↔ qNames q = [] := by
    have := congrArg List.length (h5 σ ρ hρ).1
    have := congrArg List.length (h5 σ ρ hρ).2
    simp only [List.length_map] at *
    rw [← List.length_eq_zero_iff, ← List.length_eq_zero_iff, List.length_append]
    omega
  rw [hany, hany, hany, List.map_append, (h5 σ ρ hρ).1, (h5 σ ρ hρ).2] at g5
  rw [if_congr hX.symm rfl rfl, g5]
  have hnames : ∀ e ∈ es.map (mapAtoms renamed), ∀ n, .sym n ∈ e.atoms → FreeName flavour n := by
    intro e he n hn
    obtain ⟨e', he', rfl⟩ := List.mem_map.1 he
    obtain ⟨m, hm, hc⟩ := h4 e' he' _ hn
    cases hc
    exact hfree n hm
  rw [(exec_results g4 hnames).1 (es.map fun e => .num (e.eval σ))]
  · match es with
    | [] => rfl
    | [e] => rfl
    | _ :: _ :: _ => simp [nums]
  · rw [List.forall₂_map_left_iff]
    refine forall₂_values g4 h hρ fun e he x hx => ?_
    obtain ⟨n, hn, rfl⟩ := h4 e he x hx
    refine ⟨n, rfl, ?_⟩
    rw [List.mem_append, List.mem_append] at hn
    rcases hn with (hn | hn) | hn
    · exact g1 n hn
    · rw [g2 n hn, bval, if_neg hu1]
    · rw [g3 n hn, bval, if_neg hp1]

/-- C138. An expression that is the only parameter: the function returns a list with its value instead of the value. -/
theorem C138_one_refuted {q : QVars} (ho : q ≠ .other) (hl : ∀ n ∈ qNames q, Plain n) (hnd : (qNames q).Nodup) (o : SetOrder)
    {e : Expr} (h : Named e) (flavour : String) :
    ∃ a f, findArgs o [e] q .none false false = .ok a ∧ printFuncs o [e] q flavour = .ok f ∧
      ∀ c, a.params = [c] → a.u = [] → qNames q = [] → FreeName flavour c → mapAtoms renamed e = .atom (.sym c) →
        ∀ p, f.run [nums [p]] = .ok (nums [p]) := by
  obtain ⟨a, f, ha, hf, h4, h5, h6⟩ := print_some ho hl hnd o (es := [e]) (by simpa using h) flavour
  refine ⟨a, f, ha, hf, fun c hc hu hq hfree hec p => ?_⟩
  obtain ⟨σ, hσ⟩ : ∃ σ : Quantity → ℝ, σ = fun _ => 0 := ⟨_, rfl⟩
  have hX : a.q ++ a.v = [] := by
    have h2 : a.q.length = 0 ∧ a.v.length = 0 := by
      obtain ⟨a', ha', -, h2, h3, -⟩ := args_ok ho hl hnd (u := .none) (by trivial) false false o (es := [e]) (by simpa using h)
      rw [ha] at ha'
      cases ha'
      simp [h2, h3, hq]
    simp [List.length_eq_zero_iff.1 h2.1, List.length_eq_zero_iff.1 h2.2]
  obtain ⟨s, -, -, g3, g4, g5⟩ := h6 (by simpa [hX, hu, hc] using hfree) fun _ => p
  rw [hX, hu, hc] at g5
  have : f.run [nums [p]] = _ := g5
  rw [this, (exec_results g4 ?_).1 [nums [p]]]
  · simp only [List.map_cons, List.map_nil, List.forall₂_cons, List.Forall₂.nil, and_true, hec, evalPy, Env.get, g3 c (by simp [hc]), hc]
    rfl
  · intro e' he' n hn
    simp only [List.map_cons, List.map_nil, List.mem_singleton] at he'
    rw [he', hec] at hn
    simp only [Expr.atoms, List.mem_singleton, Quantity.sym.injEq] at hn
    rw [hn]
    exact hfree

/-- The symbols of a pendulum. -/
theorem pendulum_symbols (n : Name) : .sym n ∈ (mapAtoms renamed pendulum).atoms ↔ n = indexed 'u' 0 ∨ n = ['m'] ∨ n = ['g'] ∨ n = indexed 'q' 0 := by
  have hs : ∀ c : Char, ¬Short [c] := by
    rintro c ⟨c', t, h, -, h0, -⟩
    simp only [List.cons.injEq] at h
    exact h0 h.2.symm
  have h1 : renamed (.sym (indexed 'u' 0)) = .sym (indexed 'u' 0) := by
    simp only [renamed, rename, diffToSymb, Except.map]
    rw [indexed, std_other (long_not_short _ _)]
  have h2 : renamed (.sym ['m']) = .sym ['m'] := by
    simp only [renamed, rename, diffToSymb, Except.map]
    rw [std_other (hs _)]
  have h3 : renamed (.sym ['g']) = .sym ['g'] := by
    simp only [renamed, rename, diffToSymb, Except.map]
    rw [std_other (hs _)]
  have h4 : renamed (.dyn (indexed 'q' 0) 0) = .sym (indexed 'q' 0) := by
    simp only [renamed, rename, diffToSymb, Except.map]
    rw [indexed, std_other (long_not_short _ _)]
  simp only [pendulum, mapAtoms, h1, h2, h3, h4, Expr.atoms, List.mem_append, List.mem_singleton, Quantity.sym.injEq, or_assoc]

/-- C137 for a pendulum with two controls: its function for NumPy returns its velocity and its acceleration. -/
example : ∃ (a : Args) (f : PyFun), printFuncsRHS textOrder [pendulum] (.int 1) (.int 2) "np" = .ok f ∧ a.u.length = 2 ∧ 2 ≤ a.params.length ∧
    ∀ σ ρ, Values σ ρ → f.run [nums [σ (.dyn (indexed 'q' 0) 0), σ (.dyn (indexed 'q' 0) 1)], nums (a.u.map ρ), nums (a.params.map ρ)] =
      .ok (nums [σ (.dyn (indexed 'q' 0) 1), pendulum.eval σ]) := by
  obtain ⟨a, f, ha, hf, h⟩ := C137_partial (q := .int 1) (by simp)
    (fun n hn => by obtain ⟨i, -, rfl⟩ := List.mem_map.1 hn; exact plain_indexed (.inl rfl) i) (range_nodup' _ _)
    (u := .int 2) trivial textOrder (RHS := [pendulum]) (by simpa using pendulum_named.1) (by simp [qNames, Names.range]) "np"
  have hfa := ha
  rw [findArgs_eq textOrder (by simpa using pendulum_named.1)] at hfa
  have hfa := liftN_ok hfa
  obtain ⟨hq, hv, hu⟩ := find_ints hfa
  obtain ⟨g1, g2⟩ := find_groups hfa
  have i0 : ∀ c, indexed c 0 = [c, '_', '0'] := fun c => rfl
  have i1 : ∀ c, indexed c 1 = [c, '_', '1'] := fun c => rfl
  have hr1 : ∀ c, Names.range c 1 = [[c, '_', '0']] := fun c => rfl
  have hr2 : ∀ c, Names.range c 2 = [[c, '_', '0'], [c, '_', '1']] := fun c => rfl
  have hin : ∀ c, [c] ∈ textOrder.sym (mapAtoms renamed pendulum) → [c] ∈ a.params := by
    intro c hc
    have := C53_cover hfa (s := _) (List.mem_map.2 ⟨pendulum, by simp, rfl⟩) hc
    rw [hq, hv, hu, g1 rfl, g2 rfl, hr1, hr1, hr2] at this
    simpa using this
  have hm : ['m'] ∈ a.params := hin _ ((textOrder.sym_mem _ _).2 ((pendulum_symbols _).2 (by simp)))
  have hg : ['g'] ∈ a.params := hin _ ((textOrder.sym_mem _ _).2 ((pendulum_symbols _).2 (by simp)))
  have hp : 2 ≤ a.params.length := by
    have : ([['m'], ['g']] : List Name).Subperm a.params := List.subperm_of_subset (by decide) (by simp [hm, hg])
    exact this.length_le
  have hu2 : a.u.length = 2 := by rw [hu]; rfl
  have hmem : ∀ n ∈ a.q ++ a.v ++ a.u ++ a.params, n ∈ [['q', '_', '0'], ['v', '_', '0'], ['u', '_', '0'], ['u', '_', '1'], ['m'], ['g']] := by
    intro n hn
    rw [hq, hv, hu, hr1, hr1, hr2, List.mem_append] at hn
    rcases hn with hn | hn
    · simp only [List.mem_append, List.mem_cons, List.not_mem_nil, or_false] at hn ⊢
      tauto
    · obtain ⟨s, hs, hm⟩ := C53_found hfa (.inl (List.mem_append_left _ hn))
      rw [List.map_cons, List.map_nil, List.mem_singleton] at hs
      rw [hs] at hm
      have := (pendulum_symbols _).1 ((textOrder.sym_mem _ _).1 hm)
      rw [i0, i0] at this
      simp only [List.mem_cons, List.not_mem_nil, or_false]
      tauto
  have hfree : ∀ n ∈ [['q', '_', '0'], ['v', '_', '0'], ['u', '_', '0'], ['u', '_', '1'], ['m'], ['g']], FreeName "np" n := by
    intro n hn
    refine ⟨?_, ?_, ?_⟩
    · intro hc
      have := hc.length_le
      simp only [List.mem_cons, List.not_mem_nil, or_false] at hn
      rcases hn with rfl | rfl | rfl | rfl | rfl | rfl <;> simp at this
    · revert n
      decide
    · revert n
      decide
  refine ⟨a, f, hf, hu2, hp, fun σ ρ hρ => ?_⟩
  exact h (by omega) hp (fun n hn => hfree n (hmem n hn)) σ ρ hρ

end Chords.Props
