import Verif.Model.NumFuncs
import Verif.Props.CasFuncs
import Verif.Props.GenFun

/-! # Symbolic dynamics as numpy functions (C135, C136) -/

namespace Chords.Props
open Names CasFuncs NumFuncs

variable [PyChars]

omit [PyChars] in
theorem mapError_ok {A E E' : Type} (f : E → E') (a : A) : (Except.ok a : Except E A).mapError f = .ok a := rfl

omit [PyChars] in
theorem mapM_callOne {n : ℕ} {args : List NumTools.Val} (h : args.length = n) (fs : List NumTools.Expr) :
    (fs.map Except.ok).mapM (callOne n args) = (fs.mapM fun f : NumTools.Expr => f.eval args).mapError FErr.num := by
  induction fs with
  | nil => rfl
  | cons f fs ih =>
    rw [List.map_cons, List.mapM_cons, List.mapM_cons, ih]
    simp only [callOne, h, ne_eq, not_true_eq_false, if_false, bind, Except.bind, pure, Except.pure]
    cases f.eval args with
    | error e => rfl
    | ok a => cases fs.mapM fun f : NumTools.Expr => f.eval args <;> rfl

omit [PyChars] in
/-- The function returned is that of C84. -/
theorem call_newF {n : ℕ} {fs : List NumTools.Expr} {args : List NumTools.Val} {x u p : NumTools.Val} {xs us ps : List NumTools.Val}
    {parts : List (List NumTools.Val)} (ha : args.mapM NumTools.unpack = .ok parts) (hx : NumTools.unpack x = .ok xs)
    (hu : NumTools.unpack u = .ok us) (hp : NumTools.unpack p = .ok ps) (he : parts.flatten = xs ++ us ++ ps)
    (hn : parts.flatten.length = n) :
    NumFun.call ⟨n, fs.map Except.ok⟩ args = (NumTools.newF fs n x u p).mapError FErr.num := by
  have h1 : args.mapM (fun v => (NumTools.unpack v).mapError FErr.num) = .ok parts := by
    clear he hn
    induction args generalizing parts with
    | nil => cases ha; rfl
    | cons v vs ih =>
      rw [List.mapM_cons] at ha ⊢
      cases hv : NumTools.unpack v with
      | error e => simp [hv, bind, Except.bind] at ha
      | ok a =>
        cases hvs : vs.mapM NumTools.unpack with
        | error e => simp [hv, hvs, bind, Except.bind] at ha
        | ok b =>
          simp only [hv, hvs, bind, Except.bind, pure, Except.pure] at ha
          cases ha
          rw [ih hvs]
          rfl
  simp only [NumFun.call, h1, bind, Except.bind, NumTools.newF, hx, hu, hp]
  rw [mapM_callOne hn, ← he, if_pos hn]
  cases fs.mapM fun f : NumTools.Expr => f.eval parts.flatten <;> rfl

/-- `lambdify` of expressions whose symbols are variables. -/
theorem lambdify_eq {vars : List Name} (hn : vars.Nodup) {e : Expr} (ha : ∀ q ∈ e.atoms, ∃ n ∈ vars, q = .sym n) :
    lambdify vars e = .ok (.ok ⟨positions vars e, fun env => valueAt vars env e, valueAt_local vars e⟩) := by
  unfold lambdify
  rw [if_neg (not_not.2 hn), if_neg]
  rintro ⟨q, hq, hv⟩
  obtain ⟨n, h1, h2⟩ := ha q hq
  exact hv n h1 h2

/-- The function that `lambdify` makes. -/
noncomputable def lambdified (vars : List Name) (e : Expr) : NumTools.Expr :=
  ⟨positions vars e, fun env => valueAt vars env e, valueAt_local vars e⟩

theorem lambdifyAll_eq {vars : List Name} (hn : vars.Nodup) {es : List Expr} (ha : ∀ e ∈ es, ∀ q ∈ e.atoms, ∃ n ∈ vars, q = .sym n) :
    es.mapM (lambdify vars) = .ok ((es.map (lambdified vars)).map Except.ok) := by
  rw [List.map_map]
  exact Exc.mapM_eq fun e he => lambdify_eq hn (ha e he)

theorem valueAt_eq {vars : List Name} {e : Expr} (ha : ∀ q ∈ e.atoms, ∃ n ∈ vars, q = .sym n) (ρ : Name → ℝ) (σ : Quantity → ℝ)
    (hσ : ∀ n, σ (.sym n) = ρ n) : valueAt vars (fun i => (vars.map ρ).getD i 0) e = e.eval σ := by
  unfold valueAt
  refine eval_congr e fun q hq => ?_
  obtain ⟨n, h1, rfl⟩ := ha q hq
  rw [hσ]
  exact idxOf_getD ρ h1

/-- The closure for one sample. -/
theorem sample_eq {groups : List (List Name)} {vars : List Name} (hf : groups.flatten = vars) (hn : vars.Nodup) {es : List Expr}
    (h0 : es ≠ []) (ha : ∀ e ∈ es, ∀ q ∈ e.atoms, ∃ n ∈ vars, q = .sym n) (ρ : Name → ℝ) (σ : Quantity → ℝ) (hσ : ∀ n, σ (.sym n) = ρ n) :
    NumFun.call ⟨vars.length, (es.map (lambdified vars)).map Except.ok⟩ (groups.map fun g => .vec (g.map ρ)) =
      .ok (.vec (es.map fun e => e.eval σ)) := by
  subst hf
  have h1 : (groups.map fun g => NumTools.Val.vec (g.map ρ)).mapM NumTools.unpack =
      .ok (groups.map fun g => (g.map ρ).map NumTools.Val.scal) := by
    rw [List.mapM_map]
    exact Exc.mapM_eq fun g _ => rfl
  have h2 : (groups.map fun g => (g.map ρ).map NumTools.Val.scal).flatten = (groups.flatten.map ρ).map NumTools.Val.scal := by
    simp only [List.map_flatten, List.map_map]
    congr 1
    refine List.map_congr_left fun g _ => ?_
    simp [Function.comp]
  have h3 := NumTools.Props.C84_sample (funcs := es.map (lambdified groups.flatten)) (by simpa using h0) (groups.flatten.map ρ) [] []
  simp only [List.length_map, List.length_nil, Nat.add_zero, List.append_nil] at h3
  rw [call_newF h1 (x := .vec (groups.flatten.map ρ)) (u := .vec []) (p := .vec []) rfl rfl rfl (by rw [h2]; simp)
    (by rw [h2, List.length_map, List.length_map]), h3, mapError_ok, List.map_map]
  congr 2
  refine List.map_congr_left fun e he => ?_
  exact valueAt_eq (ha e he) ρ σ hσ

/-- The expressions of `x'`. -/
theorem funcsX_eq {a : Args} {n : ℕ} (hq : a.q.length = n) (hv : a.v.length = n) {es : List Expr} (hn : es.length = n ∨ es.length = 2 * n) :
    funcsX a es = .ok (if es.length = n then a.v.map (fun m => Expr.atom (.sym m)) ++ es else es) := by
  unfold funcsX
  by_cases hc : es.length = n
  · rw [if_pos (by omega), if_pos hc]
  · rw [if_neg (by omega), if_neg hc, if_pos]
    rw [List.length_append, hq, hv]
    omega

/-- The expressions of the accelerations. -/
theorem funcsQ_eq {a : Args} {n : ℕ} (hq : a.q.length = n) (hv : a.v.length = n) {es : List Expr} (hn : es.length = n ∨ es.length = 2 * n) :
    funcsQ a es = .ok (if es.length = n then es else es.drop n) := by
  unfold funcsQ
  by_cases hc : es.length = n
  · rw [if_pos (by omega), if_pos hc]
  · rw [if_neg (by omega), if_neg hc, if_pos]
    · rw [show es.length / 2 = n by omega]
    · rw [List.length_append, hq, hv]
      omega

/-! ### C135: `RHS2numpy` -/

/-- The values that are expected in mode `"x"`. -/
noncomputable def derivative (q : List Name) (RHS : List Expr) (σ : Quantity → ℝ) : List ℝ :=
  if RHS.length = q.length then (q.map fun n => σ (.dyn n 1)) ++ RHS.map fun e => e.eval σ else RHS.map fun e => e.eval σ

/-- The values that are expected in mode `"q"`. -/
noncomputable def accelerations (q : List Name) (RHS : List Expr) (σ : Quantity → ℝ) : List ℝ :=
  if RHS.length = q.length then RHS.map fun e => e.eval σ else (RHS.drop q.length).map fun e => e.eval σ

/-- Values of the symbols alone. -/
noncomputable def symValues (ρ : Name → ℝ) : Quantity → ℝ := fun q => match q with
  | .sym n => ρ n
  | .dyn _ _ => 0

theorem rhs_parts {q : QVars} (ho : q ≠ .other) (hl : ∀ n ∈ qNames q, Plain n) (hnd : (qNames q).Nodup) {u : UVars}
    (hu : FitU (qNames q) u) (o : SetOrder) {RHS : List Expr} (h : ∀ e ∈ RHS, Named e)
    (hn : RHS.length = (qNames q).length ∨ RHS.length = 2 * (qNames q).length) (h0 : qNames q ≠ []) :
    ∃ a vars xs as, findArgs o RHS q u false false = .ok a ∧ vars = a.q ++ a.v ++ a.u ++ a.params ∧
      rhs2numpy o RHS q u "x" = .ok ⟨vars.length, (xs.map (lambdified vars)).map Except.ok⟩ ∧
      rhs2numpy o RHS q u "q" = .ok ⟨vars.length, (as.map (lambdified vars)).map Except.ok⟩ ∧ vars.Nodup ∧
      (∀ e ∈ xs, ∀ q ∈ e.atoms, ∃ n ∈ vars, q = .sym n) ∧ (∀ e ∈ as, ∀ q ∈ e.atoms, ∃ n ∈ vars, q = .sym n) ∧
      xs ≠ [] ∧ as ≠ [] ∧ a.q.length = (qNames q).length ∧ a.v.length = (qNames q).length ∧
      xs = (if RHS.length = (qNames q).length then a.v.map (fun m => Expr.atom (.sym m)) ++ RHS.map (mapAtoms renamed)
        else RHS.map (mapAtoms renamed)) ∧
      as = (if RHS.length = (qNames q).length then RHS.map (mapAtoms renamed) else (RHS.map (mapAtoms renamed)).drop (qNames q).length) ∧
      (∀ σ ρ, Values σ ρ → a.q.map ρ = (qNames q).map (fun n => σ (.dyn n 0)) ∧ a.v.map ρ = (qNames q).map (fun n => σ (.dyn n 1)) ∧
        (xs.map fun e => e.eval (symValues ρ)) = derivative (qNames q) RHS σ ∧
        (as.map fun e => e.eval (symValues ρ)) = accelerations (qNames q) RHS σ) := by
  obtain ⟨a, ha, h1, h2, h3, h4, h5, -, h7, h8⟩ := args_ok ho hl hnd hu false false o h
  rw [h7 rfl, h8 rfl, List.append_nil, List.append_nil] at h1 h4
  have hpos : 0 < (qNames q).length := List.length_pos_of_ne_nil h0
  obtain ⟨es, hes⟩ : ∃ es, es = RHS.map (mapAtoms renamed) := ⟨_, rfl⟩
  have hlen : es.length = RHS.length := by rw [hes, List.length_map]
  have e1 := funcsX_eq h2 h3 (es := es) (by omega)
  have e2 := funcsQ_eq h2 h3 (es := es) (by omega)
  have hmem : ∀ e ∈ es, ∀ x ∈ e.atoms, ∃ n ∈ a.q ++ a.v ++ a.u ++ a.params, x = .sym n := by
    intro e he
    rw [hes] at he
    obtain ⟨e', he', rfl⟩ := List.mem_map.1 he
    exact h4 e' he'
  have hx : ∀ e ∈ (if es.length = (qNames q).length then a.v.map (fun m => Expr.atom (.sym m)) ++ es else es), ∀ x ∈ e.atoms,
      ∃ n ∈ a.q ++ a.v ++ a.u ++ a.params, x = .sym n := by
    intro e he
    split at he
    · rcases List.mem_append.1 he with he | he
      · obtain ⟨n, hn, rfl⟩ := List.mem_map.1 he
        intro x hx
        simp only [Expr.atoms, List.mem_singleton] at hx
        exact ⟨n, by simp [hn], hx⟩
      · exact hmem e he
    · exact hmem e he
  have hq : ∀ e ∈ (if es.length = (qNames q).length then es else es.drop (qNames q).length), ∀ x ∈ e.atoms,
      ∃ n ∈ a.q ++ a.v ++ a.u ++ a.params, x = .sym n := by
    intro e he
    split at he
    · exact hmem e he
    · exact hmem e (List.mem_of_mem_drop he)
  refine ⟨a, _, _, _, ha, rfl, ?_, ?_, h1, hx, hq, ?_, ?_, h2, h3, by rw [hlen, hes], by rw [hlen, hes], ?_⟩
  · simp only [rhs2numpy, renameAll_eq o h, findArgs_again o h, ha, bind, Except.bind, if_true, pure, Except.pure]
    rw [← hes, e1]
    dsimp only
    rw [lambdifyAll_eq h1 hx]
  · simp only [rhs2numpy, renameAll_eq o h, findArgs_again o h, ha, bind, Except.bind, if_true, pure, Except.pure]
    rw [if_neg (by decide), ← hes, e2]
    dsimp only
    rw [lambdifyAll_eq h1 hq]
  · intro hc
    have := congrArg List.length hc
    split at this <;> simp only [List.length_append, List.length_map, List.length_nil] at this <;> omega
  · intro hc
    have := congrArg List.length hc
    split at this <;> simp only [List.length_drop, List.length_nil] at this <;> omega
  · intro σ ρ hv
    obtain ⟨g1, g2, -⟩ := h5 σ ρ hv
    have g3 : (es.map fun e => e.eval (symValues ρ)) = RHS.map fun e => e.eval σ := by
      rw [hes]
      exact map_eval_renamed h hv
    refine ⟨g1, g2, ?_, ?_⟩
    · unfold derivative
      rw [hlen]
      split
      · rw [List.map_append, g3, ← g2, List.map_map]
        rfl
      · exact g3
    · unfold accelerations
      rw [hlen]
      split
      · exact g3
      · rw [List.map_drop, g3, List.map_drop]

/-- C135, one sample. For coordinates with plain names, the function of `RHS2numpy` in mode `"x"` gives `x'` of a state, and in mode `"q"`
the accelerations, when the controls and parameters are in the order of `find_arguments`. -/
theorem C135_sample {q : QVars} (ho : q ≠ .other) (hl : ∀ n ∈ qNames q, Plain n) (hnd : (qNames q).Nodup) {u : UVars}
    (hu : FitU (qNames q) u) (o : SetOrder) {RHS : List Expr} (h : ∀ e ∈ RHS, Named e)
    (hn : RHS.length = (qNames q).length ∨ RHS.length = 2 * (qNames q).length) (h0 : qNames q ≠ []) :
    ∃ a F G, findArgs o RHS q u false false = .ok a ∧ rhs2numpy o RHS q u "x" = .ok F ∧ rhs2numpy o RHS q u "q" = .ok G ∧
      ∀ σ ρ, Values σ ρ →
        F.call [.vec (((qNames q).map fun n => σ (.dyn n 0)) ++ (qNames q).map fun n => σ (.dyn n 1)), .vec (a.u.map ρ),
          .vec (a.params.map ρ)] = .ok (.vec (derivative (qNames q) RHS σ)) ∧
        G.call [.vec ((qNames q).map fun n => σ (.dyn n 0)), .vec ((qNames q).map fun n => σ (.dyn n 1)), .vec (a.u.map ρ),
          .vec (a.params.map ρ)] = .ok (.vec (accelerations (qNames q) RHS σ)) := by
  obtain ⟨a, vars, xs, as, ha, hvars, hF, hG, hd, hx, hs, nx, na, -, -, -, -, hv⟩ := rhs_parts ho hl hnd hu o h hn h0
  refine ⟨a, _, _, ha, hF, hG, fun σ ρ hρ => ?_⟩
  obtain ⟨g1, g2, g3, g4⟩ := hv σ ρ hρ
  have s1 := sample_eq (groups := [a.q ++ a.v, a.u, a.params]) (vars := vars) (by rw [hvars]; simp) hd nx hx ρ (symValues ρ) fun _ => rfl
  have s2 := sample_eq (groups := [a.q, a.v, a.u, a.params]) (vars := vars) (by rw [hvars]; simp) hd na hs ρ (symValues ρ) fun _ => rfl
  simp only [List.map_cons, List.map_nil, List.map_append, g1, g2, g3, g4] at s1 s2
  exact ⟨s1, s2⟩

omit [PyChars] in
/-- Rows of a table. -/
theorem rowVars_eq {nx nu : ℕ} (x u p : List ℝ) (hx : x.length = nx) (hu : u.length = nu) :
    NumTools.Props.rowVars (fun j : Fin nx => x.getD j 0) (fun j : Fin nu => u.getD j 0) p = x ++ u ++ p := by
  subst hx hu
  have h : ∀ l : List ℝ, (List.ofFn fun j : Fin l.length => l.getD j 0) = l := by
    intro l
    refine List.ext_getElem (by simp) fun i h1 h2 => ?_
    simp [h2]
  unfold NumTools.Props.rowVars
  rw [h, h]

/-- The name of a state is an argument. -/
theorem state_mem {q : List Name} {a : Args} (hv : ∀ σ ρ, Values σ ρ → a.q.map ρ = q.map (fun n => σ (.dyn n 0)) ∧
    a.v.map ρ = q.map (fun n => σ (.dyn n 1))) {n : Name} (hn : n ∈ q) {k : ℕ} (hk : k ≤ 1) {s : Name} (hs : rename (.dyn n k) = .ok s) :
    s ∈ a.q ++ a.v := by
  classical
  obtain ⟨g1, g2⟩ := hv (fun q => match rename q with | .ok t => if t = s then 1 else 0 | .error _ => 0)
    (fun t => if t = s then 1 else 0) (fun q t ht => by simp only [ht])
  have key : ∀ l : List Name, l.map (fun t => if t = s then (1 : ℝ) else 0) = q.map (fun n => match rename (.dyn n k) with
      | .ok t => if t = s then (1 : ℝ) else 0 | .error _ => 0) → s ∈ l := by
    intro l h
    have : (1 : ℝ) ∈ l.map (fun t => if t = s then (1 : ℝ) else 0) := by
      rw [h]
      exact List.mem_map.2 ⟨n, hn, by simp only [hs, if_true]⟩
    obtain ⟨t, ht, h1⟩ := List.mem_map.1 this
    split at h1
    · next h2 => exact h2 ▸ ht
    · norm_num at h1
  rcases Nat.le_one_iff_eq_zero_or_eq_one.1 hk with rfl | rfl
  · exact List.mem_append_left _ (key _ g1)
  · exact List.mem_append_right _ (key _ g2)

/-- An expression with a state or a control. -/
def Varies (q : List Name) (a : Args) (e : Expr) : Prop :=
  (∃ n ∈ q, ∃ k ≤ 1, .dyn n k ∈ e.atoms) ∨ ∃ x ∈ e.atoms, ∃ s ∈ a.u, rename x = .ok s

/-- An argument among the states or controls. -/
theorem varies_dep {q : List Name} {a : Args} (hv : ∀ σ ρ, Values σ ρ → a.q.map ρ = q.map (fun n => σ (.dyn n 0)) ∧
    a.v.map ρ = q.map (fun n => σ (.dyn n 1))) {vars : List Name} (hvars : vars = a.q ++ a.v ++ a.u ++ a.params) {e : Expr} (hn : Named e)
    (h : Varies q a e) : ∃ i ∈ (lambdified vars (mapAtoms renamed e)).deps, i < (a.q ++ a.v ++ a.u).length := by
  obtain ⟨s, hs, hse⟩ : ∃ s ∈ a.q ++ a.v ++ a.u, Quantity.sym s ∈ (mapAtoms renamed e).atoms := by
    rw [atoms_mapAtoms]
    rcases h with ⟨n, hnq, k, hk, hmem⟩ | ⟨x, hx, s, hs, hxs⟩
    · obtain ⟨s, hs⟩ := hn _ hmem
      exact ⟨s, List.mem_append_left _ (state_mem hv hnq hk hs), List.mem_map.2 ⟨_, hmem, by simp only [renamed, hs]⟩⟩
    · exact ⟨s, List.mem_append_right _ hs, List.mem_map.2 ⟨_, hx, by simp only [renamed, hxs]⟩⟩
  refine ⟨vars.idxOf s, List.mem_map.2 ⟨_, hse, rfl⟩, ?_⟩
  rw [hvars, List.idxOf_append_of_mem hs]
  exact List.idxOf_lt_length_iff.2 hs

/-- The table of states and that of controls. -/
noncomputable def stateRows (q : List Name) (k : ℕ) {N : ℕ} (σ : Fin N → Quantity → ℝ) : List (Fin q.length → ℝ) :=
  List.ofFn fun i (j : Fin _) => (q.map fun n => σ i (.dyn n k)).getD j 0

/-- States and their derivatives. -/
noncomputable def fullRows (q : List Name) {N : ℕ} (σ : Fin N → Quantity → ℝ) : List (Fin (2 * q.length) → ℝ) :=
  List.ofFn fun i (j : Fin _) => ((q.map fun n => σ i (.dyn n 0)) ++ q.map fun n => σ i (.dyn n 1)).getD j 0

/-- Controls. -/
noncomputable def controlRows (us : List Name) {N : ℕ} (ρ : Fin N → Name → ℝ) : List (Fin us.length → ℝ) :=
  List.ofFn fun i (j : Fin _) => (us.map (ρ i)).getD j 0

omit [PyChars] in
/-- The columns of the two tables. -/
theorem full_columns (q : List Name) {N : ℕ} (σ : Fin N → Quantity → ℝ) :
    ((List.finRange (2 * q.length)).map fun j => NumTools.Val.vec ((fullRows q σ).map fun r => r j)) =
      ((List.finRange q.length).map fun j => NumTools.Val.vec ((stateRows q 0 σ).map fun r => r j)) ++
        (List.finRange q.length).map fun j => NumTools.Val.vec ((stateRows q 1 σ).map fun r => r j) := by
  refine List.ext_getElem (by simp; omega) fun i h1 h2 => ?_
  simp only [List.length_map, List.length_finRange] at h1
  rw [List.getElem_append]
  simp only [List.getElem_map, List.getElem_finRange, List.length_map, List.length_finRange, fullRows, stateRows, List.map_ofFn]
  split
  · next h =>
    congr 2
    funext k
    simp only [Function.comp, Fin.val_cast]
    rw [List.getD_eq_getElem?_getD, List.getD_eq_getElem?_getD, List.getElem?_append_left (by simpa using h)]
  · next h =>
    congr 2
    funext k
    simp only [Function.comp, Fin.val_cast]
    rw [List.getD_eq_getElem?_getD, List.getD_eq_getElem?_getD, List.getElem?_append_right (by simpa using h)]
    simp

/-- What is used of a series. -/
theorem series_call {q : List Name} {a : Args} {vars : List Name} (hvars : vars = a.q ++ a.v ++ a.u ++ a.params)
    (lq : a.q.length = q.length) (lv : a.v.length = q.length) (fs : List NumTools.Expr) {N : ℕ} (σ : Fin N → Quantity → ℝ)
    (ρ : Fin N → Name → ℝ) {p : List ℝ} (hp : p.length = a.params.length) :
    vars.length = 2 * q.length + a.u.length + p.length ∧
    NumFun.call ⟨vars.length, fs.map Except.ok⟩ [.mat _ (fullRows q σ), .mat _ (controlRows a.u ρ), .vec p] =
      (NumTools.newF fs (2 * q.length + a.u.length + p.length) (.mat _ (fullRows q σ)) (.mat _ (controlRows a.u ρ)) (.vec p)).mapError FErr.num ∧
    NumFun.call ⟨vars.length, fs.map Except.ok⟩ [.mat _ (stateRows q 0 σ), .mat _ (stateRows q 1 σ), .mat _ (controlRows a.u ρ), .vec p] =
      (NumTools.newF fs (2 * q.length + a.u.length + p.length) (.mat _ (fullRows q σ)) (.mat _ (controlRows a.u ρ)) (.vec p)).mapError FErr.num := by
  have hvl : vars.length = 2 * q.length + a.u.length + p.length := by
    rw [hvars]
    simp only [List.length_append]
    omega
  have h1 : [NumTools.Val.mat _ (fullRows q σ), .mat _ (controlRows a.u ρ), .vec p].mapM NumTools.unpack = .ok [
      (List.finRange (2 * q.length)).map fun j => .vec ((fullRows q σ).map fun r => r j),
      (List.finRange a.u.length).map fun j => .vec ((controlRows a.u ρ).map fun r => r j), p.map .scal] := rfl
  have h2 : [NumTools.Val.mat _ (stateRows q 0 σ), .mat _ (stateRows q 1 σ), .mat _ (controlRows a.u ρ), .vec p].mapM NumTools.unpack = .ok [
      (List.finRange q.length).map fun j => .vec ((stateRows q 0 σ).map fun r => r j),
      (List.finRange q.length).map fun j => .vec ((stateRows q 1 σ).map fun r => r j),
      (List.finRange a.u.length).map fun j => .vec ((controlRows a.u ρ).map fun r => r j), p.map .scal] := rfl
  refine ⟨hvl, ?_, ?_⟩
  · rw [call_newF h1 (x := .mat _ (fullRows q σ)) (u := .mat _ (controlRows a.u ρ)) (p := .vec p) rfl rfl rfl (by simp) (by
      simp only [List.flatten_cons, List.flatten_nil, List.append_nil, List.length_append, List.length_map, List.length_finRange]
      omega), hvl]
  · rw [call_newF h2 (x := .mat _ (fullRows q σ)) (u := .mat _ (controlRows a.u ρ)) (p := .vec p) rfl rfl rfl (by
      rw [full_columns]
      simp) (by
      simp only [List.flatten_cons, List.flatten_nil, List.append_nil, List.length_append, List.length_map, List.length_finRange]
      omega), hvl]

/-- The rows of the results. -/
theorem series_rows {q : List Name} {a : Args} {vars : List Name} (hvars : vars = a.q ++ a.v ++ a.u ++ a.params)
    (hv : ∀ σ ρ, Values σ ρ → a.q.map ρ = q.map (fun n => σ (.dyn n 0)) ∧ a.v.map ρ = q.map (fun n => σ (.dyn n 1)))
    {es : List Expr} (hx : ∀ e ∈ es, ∀ q ∈ e.atoms, ∃ n ∈ vars, q = .sym n) (h0 : es ≠ [])
    (hdep : ∀ e ∈ es, ∃ i ∈ (lambdified vars e).deps, i < 2 * q.length + a.u.length) {N : ℕ} (hN : 2 ≤ N) (σ : Fin N → Quantity → ℝ)
    (ρ : Fin N → Name → ℝ) (hσ : ∀ k, Values (σ k) (ρ k)) {p : List ℝ} (hp : ∀ k, a.params.map (ρ k) = p) :
    ∃ m, ∃ R : List (Fin m → ℝ), NumTools.newF (es.map (lambdified vars)) (2 * q.length + a.u.length + p.length) (.mat _ (fullRows q σ))
        (.mat _ (controlRows a.u ρ)) (.vec p) = .ok (.mat m R) ∧
      R.map List.ofFn = List.ofFn fun k => es.map fun e => e.eval (symValues (ρ k)) := by
  obtain ⟨R, hR, hRl, hRv⟩ := NumTools.Props.C84_series_partial hN (X := fullRows q σ) (U := controlRows a.u ρ) (by simp [fullRows])
    (by simp [controlRows]) p (funcs := es.map (lambdified vars)) (by simpa using h0) (by
      intro f hf
      obtain ⟨e, he, rfl⟩ := List.mem_map.1 hf
      exact hdep e he)
  refine ⟨_, R, hR, ?_⟩
  refine List.ext_getElem (by simp [hRl]) fun k h1 h2 => ?_
  have hk : k < N := by simpa using h2
  have hkR : k < R.length := by rw [hRl]; exact hk
  have := hRv k _ _ _ (by rw [fullRows, List.getElem?_ofFn, dif_pos hk]) (by rw [controlRows, List.getElem?_ofFn, dif_pos hk])
    (List.getElem?_eq_getElem hkR)
  simp only [List.getElem_map, List.getElem_ofFn]
  obtain ⟨g1, g2⟩ := hv (σ ⟨k, hk⟩) (ρ ⟨k, hk⟩) (hσ _)
  refine List.ext_getElem (by simp) fun j hj1 hj2 => ?_
  have hj : j < (es.map (lambdified vars)).length := by simpa using hj1
  simp only [List.getElem_ofFn]
  rw [this ⟨j, hj⟩, rowVars_eq _ _ _ (by simp; omega) (by simp), ← g1, ← g2, ← hp ⟨k, hk⟩, ← List.map_append, ← List.map_append,
    ← List.map_append, ← hvars]
  have hjx : j < es.length := by simpa using hj
  simp only [List.getElem_map, List.get_eq_getElem, lambdified]
  exact valueAt_eq (hx _ (List.getElem_mem hjx)) _ _ fun _ => rfl

/-- C135, series. With at least two samples and expressions that each depend on some state or control, the functions of `RHS2numpy` give a
table whose row `k` is `x'`, or the accelerations, at sample `k`. Missing for the full claim: one row (`C135_one_row_refuted`) and
expressions without states or controls (`C135_constant_refuted`). -/
theorem C135_series_partial {q : QVars} (ho : q ≠ .other) (hl : ∀ n ∈ qNames q, Plain n) (hnd : (qNames q).Nodup) {u : UVars}
    (hu : FitU (qNames q) u) (o : SetOrder) {RHS : List Expr} (h : ∀ e ∈ RHS, Named e)
    (hn : RHS.length = (qNames q).length ∨ RHS.length = 2 * (qNames q).length) (h0 : qNames q ≠ []) :
    ∃ a F G, findArgs o RHS q u false false = .ok a ∧ rhs2numpy o RHS q u "x" = .ok F ∧ rhs2numpy o RHS q u "q" = .ok G ∧
      ((∀ e ∈ RHS, Varies (qNames q) a e) →
      ∀ (N : ℕ) (σ : Fin N → Quantity → ℝ) (ρ : Fin N → Name → ℝ) (p : List ℝ), 2 ≤ N → (∀ k, Values (σ k) (ρ k)) →
        (∀ k, a.params.map (ρ k) = p) →
        (∃ m, ∃ R : List (Fin m → ℝ), F.call [.mat _ (fullRows (qNames q) σ), .mat _ (controlRows a.u ρ), .vec p] = .ok (.mat m R) ∧
          R.map List.ofFn = List.ofFn fun k => derivative (qNames q) RHS (σ k)) ∧
        ∃ m, ∃ R : List (Fin m → ℝ), G.call [.mat _ (stateRows (qNames q) 0 σ), .mat _ (stateRows (qNames q) 1 σ), .mat _ (controlRows a.u ρ),
            .vec p] = .ok (.mat m R) ∧
          R.map List.ofFn = List.ofFn fun k => accelerations (qNames q) RHS (σ k)) := by
  obtain ⟨a, vars, xs, as, ha, hvars, hF, hG, hd, hx, has, nx, na, lq, lv, hxs, hass, hv⟩ := rhs_parts ho hl hnd hu o h hn h0
  refine ⟨a, _, _, ha, hF, hG, fun hvar N σ ρ p hN hσ hp => ?_⟩
  have hplen : p.length = a.params.length := by rw [← hp ⟨0, by omega⟩, List.length_map]
  have hv' : ∀ σ ρ, Values σ ρ → a.q.map ρ = (qNames q).map (fun n => σ (.dyn n 0)) ∧ a.v.map ρ = (qNames q).map (fun n => σ (.dyn n 1)) :=
    fun σ ρ hρ => ⟨(hv σ ρ hρ).1, (hv σ ρ hρ).2.1⟩
  have hren : ∀ e ∈ RHS.map (mapAtoms renamed), ∃ i ∈ (lambdified vars e).deps, i < 2 * (qNames q).length + a.u.length := by
    intro e he
    obtain ⟨e', he', rfl⟩ := List.mem_map.1 he
    obtain ⟨i, hi, hlt⟩ := varies_dep hv' hvars (h e' he') (hvar e' he')
    refine ⟨i, hi, ?_⟩
    simp only [List.length_append] at hlt
    omega
  have hdx : ∀ e ∈ xs, ∃ i ∈ (lambdified vars e).deps, i < 2 * (qNames q).length + a.u.length := by
    intro e he
    rw [hxs] at he
    split at he
    · rcases List.mem_append.1 he with he | he
      · obtain ⟨m, hm, rfl⟩ := List.mem_map.1 he
        refine ⟨vars.idxOf m, by simp [lambdified, positions, Expr.atoms], ?_⟩
        have hm' : m ∈ a.q ++ a.v := List.mem_append_right _ hm
        rw [hvars, List.append_assoc, List.idxOf_append_of_mem hm']
        have := List.idxOf_lt_length_iff.2 hm'
        rw [List.length_append] at this
        omega
      · exact hren e he
    · exact hren e he
  have hda : ∀ e ∈ as, ∃ i ∈ (lambdified vars e).deps, i < 2 * (qNames q).length + a.u.length := by
    intro e he
    rw [hass] at he
    split at he
    · exact hren e he
    · exact hren e (List.mem_of_mem_drop he)
  obtain ⟨-, c1, -⟩ := series_call hvars lq lv (xs.map (lambdified vars)) σ ρ hplen
  obtain ⟨-, -, c2⟩ := series_call hvars lq lv (as.map (lambdified vars)) σ ρ hplen
  obtain ⟨m, R, r1, r2⟩ := series_rows hvars hv' hx nx hdx hN σ ρ hσ hp
  obtain ⟨m', R', r3, r4⟩ := series_rows hvars hv' has na hda hN σ ρ hσ hp
  refine ⟨⟨m, R, ?_, ?_⟩, m', R', ?_, ?_⟩
  · rw [c1, r1, mapError_ok]
  · rw [r2]
    congr 1
    funext k
    exact (hv _ _ (hσ k)).2.2.1
  · rw [c2, r3, mapError_ok]
  · rw [r4]
    congr 1
    funext k
    exact (hv _ _ (hσ k)).2.2.2

/-- The first expression is a velocity. -/
theorem first_velocity {q : QVars} {a : Args} {RHS : List Expr} {xs : List Expr} {vars : List Name} (hvars : vars = a.q ++ a.v ++ a.u ++ a.params)
    (lq : a.q.length = (qNames q).length) (lv : a.v.length = (qNames q).length) (h0 : qNames q ≠ []) (hn : RHS.length = (qNames q).length)
    (hxs : xs = (if RHS.length = (qNames q).length then a.v.map (fun m => Expr.atom (.sym m)) ++ RHS.map (mapAtoms renamed)
        else RHS.map (mapAtoms renamed))) :
    ∃ f fs, xs.map (lambdified vars) = f :: fs ∧ (∃ i ∈ f.deps, i < 2 * (qNames q).length + a.u.length) ∧
      ∀ e ∈ RHS, lambdified vars (mapAtoms renamed e) ∈ fs := by
  have hpos : 0 < (qNames q).length := List.length_pos_of_ne_nil h0
  rw [if_pos hn] at hxs
  obtain ⟨m, vs, hvs⟩ : ∃ m vs, a.v = m :: vs := List.exists_cons_of_length_pos (by omega)
  refine ⟨lambdified vars (.atom (.sym m)), (vs.map fun m => lambdified vars (Expr.atom (.sym m))) ++
    (RHS.map (mapAtoms renamed)).map (lambdified vars), ?_, ?_, ?_⟩
  · rw [hxs, hvs]
    simp [Function.comp]
  · refine ⟨vars.idxOf m, by simp [lambdified, positions, Expr.atoms], ?_⟩
    have hm' : m ∈ a.q ++ a.v := by simp [hvs]
    rw [hvars, List.append_assoc, List.idxOf_append_of_mem hm']
    have := List.idxOf_lt_length_iff.2 hm'
    rw [List.length_append] at this
    omega
  · intro e he
    exact List.mem_append_right _ (List.mem_map.2 ⟨_, List.mem_map.2 ⟨e, he, rfl⟩, rfl⟩)

/-- C135 is false for a table with one sample: the function raises for all systems. -/
theorem C135_one_row_refuted {q : QVars} (ho : q ≠ .other) (hl : ∀ n ∈ qNames q, Plain n) (hnd : (qNames q).Nodup) {u : UVars}
    (hu : FitU (qNames q) u) (o : SetOrder) {RHS : List Expr} (h : ∀ e ∈ RHS, Named e)
    (hn : RHS.length = (qNames q).length) (h0 : qNames q ≠ []) :
    ∃ a F, findArgs o RHS q u false false = .ok a ∧ rhs2numpy o RHS q u "x" = .ok F ∧
      ∀ (σ : Fin 1 → Quantity → ℝ) (ρ : Fin 1 → Name → ℝ) (p : List ℝ), p.length = a.params.length →
        F.call [.mat _ (fullRows (qNames q) σ), .mat _ (controlRows a.u ρ), .vec p] = .error (.num .assertion) := by
  obtain ⟨a, vars, xs, as, ha, hvars, hF, -, -, -, -, -, -, lq, lv, hxs, -⟩ := rhs_parts ho hl hnd hu o h (.inl hn) h0
  refine ⟨a, _, ha, hF, fun σ ρ p hp => ?_⟩
  obtain ⟨f, fs, e1, e2, -⟩ := first_velocity hvars lq lv h0 hn hxs
  obtain ⟨-, c1, -⟩ := series_call hvars lq lv (xs.map (lambdified vars)) σ ρ hp
  rw [c1, e1, NumTools.Props.C84_one_row (by simp [fullRows]) (by simp [controlRows]) p e2]
  rfl

/-- C135 is false for series when some acceleration depends on parameters alone, as in free fall: the function raises for all series. -/
theorem C135_constant_refuted {q : QVars} (ho : q ≠ .other) (hl : ∀ n ∈ qNames q, Plain n) (hnd : (qNames q).Nodup) {u : UVars}
    (hu : FitU (qNames q) u) (o : SetOrder) {RHS : List Expr} (h : ∀ e ∈ RHS, Named e)
    (hn : RHS.length = (qNames q).length) (h0 : qNames q ≠ []) :
    ∃ a F, findArgs o RHS q u false false = .ok a ∧ rhs2numpy o RHS q u "x" = .ok F ∧
      ((∃ e ∈ RHS, ∀ x ∈ e.atoms, ∃ s ∈ a.params, rename x = .ok s) →
      ∀ (N : ℕ) (σ : Fin N → Quantity → ℝ) (ρ : Fin N → Name → ℝ) (p : List ℝ), 1 ≤ N → p.length = a.params.length →
        F.call [.mat _ (fullRows (qNames q) σ), .mat _ (controlRows a.u ρ), .vec p] = .error (.num .assertion)) := by
  obtain ⟨a, vars, xs, as, ha, hvars, hF, -, hd, -, -, -, -, lq, lv, hxs, -⟩ := rhs_parts ho hl hnd hu o h (.inl hn) h0
  refine ⟨a, _, ha, hF, fun ⟨e, he, hc⟩ N σ ρ p hN hp => ?_⟩
  obtain ⟨f, fs, e1, e2, e3⟩ := first_velocity hvars lq lv h0 hn hxs
  obtain ⟨-, c1, -⟩ := series_call hvars lq lv (xs.map (lambdified vars)) σ ρ hp
  rcases Nat.lt_or_ge N 2 with hN2 | hN2
  · have hN1 : N = 1 := by omega
    subst hN1
    rw [c1, e1, NumTools.Props.C84_one_row (by simp [fullRows]) (by simp [controlRows]) p e2]
    rfl
  · rw [c1, e1, NumTools.Props.C84_mixed_refuted hN2 (by simp [fullRows]) (by simp [controlRows]) p e2 ⟨_, e3 e he, fun i hi => ?_⟩]
    · rfl
    · simp only [lambdified, positions, atoms_mapAtoms, List.mem_map] at hi
      obtain ⟨-, ⟨x, hx, rfl⟩, rfl⟩ := hi
      obtain ⟨s, hs, hxs⟩ := hc x hx
      simp only [renamed, hxs]
      rw [hvars] at hd ⊢
      have hns : s ∉ a.q ++ a.v ++ a.u := fun hc' => (List.nodup_append.1 hd).2.2 s hc' s hs rfl
      rw [List.idxOf_append_of_notMem hns]
      simp only [List.length_append]
      omega

/-! ### C136: `Sym2Fx` -/

/-- The symbols of velocities are those of the coordinates. -/
theorem velocity_of {q : List Name} {a : Args} (hv : ∀ σ ρ, Values σ ρ → a.v.map ρ = q.map (fun n => σ (.dyn n 1))) {s : Name}
    (hs : s ∈ a.v) : ∃ n ∈ q, rename (.dyn n 1) = .ok s := by
  classical
  have g := hv (fun q => match rename q with | .ok t => if t = s then 1 else 0 | .error _ => 0)
    (fun t => if t = s then 1 else 0) (fun q t ht => by simp only [ht])
  have h1 : (1 : ℝ) ∈ a.v.map (fun t => if t = s then (1 : ℝ) else 0) := List.mem_map.2 ⟨s, hs, if_pos rfl⟩
  rw [g] at h1
  obtain ⟨n, hn, h2⟩ := List.mem_map.1 h1
  refine ⟨n, hn, ?_⟩
  split at h2
  · next t ht =>
    split at h2
    · next h3 => rw [ht, h3]
    · norm_num at h2
  · norm_num at h2

/-- C136, the part that holds. For states given as a list of dynamic symbols with plain names (or expressions of `q_i` with a number of states), and expressions without the derivatives of
states, the function of `Sym2Fx` gives the values of the expressions. Missing for the full claim: states `x_i` given by their number
(`C136_int_refuted`); expressions with derivatives of states (`C136_derivative_refuted`). -/
theorem C136_partial {x : QVars} (ho : x ≠ .other) (hl : ∀ n ∈ qNames x, Plain n) (hnd : (qNames x).Nodup) {u : UVars}
    (hu : FitU (qNames x) u) (o : SetOrder) {RHS : List Expr} (h : ∀ e ∈ RHS, Named e) (h0 : RHS ≠ [])
    (hd : ∀ e ∈ RHS, ∀ q ∈ e.atoms, ∀ n ∈ qNames x, rename q ≠ rename (.dyn n 1)) :
    ∃ a F, findArgs o RHS x u false false = .ok a ∧ sym2Fx o RHS x u = .ok F ∧ ∀ σ ρ, Values σ ρ →
        F.call [.vec ((qNames x).map fun n => σ (.dyn n 0)), .vec (a.u.map ρ), .vec (a.params.map ρ)] =
          .ok (.vec (RHS.map fun e => e.eval σ)) := by
  obtain ⟨a, ha, h1, h2, h3, h4, h5, -, h7, h8⟩ := args_ok ho hl hnd hu false false o h
  rw [h7 rfl, h8 rfl, List.append_nil, List.append_nil] at h1 h4
  have hn : (a.q ++ a.u ++ a.params).Nodup := by
    refine h1.sublist ?_
    simp only [List.append_assoc]
    exact List.Sublist.append_left (List.sublist_append_right _ _) _
  have hm : ∀ e ∈ RHS.map (mapAtoms renamed), ∀ q ∈ e.atoms, ∃ n ∈ a.q ++ a.u ++ a.params, q = .sym n := by
    intro e he q hq
    obtain ⟨e', he', rfl⟩ := List.mem_map.1 he
    obtain ⟨n, hn, rfl⟩ := h4 e' he' q hq
    refine ⟨n, ?_, rfl⟩
    have hnv : n ∉ a.v := by
      intro hv
      obtain ⟨m, hm, hr⟩ := velocity_of (fun σ ρ hρ => (h5 σ ρ hρ).2.1) hv
      obtain ⟨s, hs, -, q', hq', hr'⟩ := renamed_atoms (h e' he') hq
      cases hs
      exact hd e' he' q' hq' m hm (hr'.trans hr.symm)
    simp only [List.mem_append] at hn ⊢
    rcases hn with ((hn | hn) | hn) | hn
    · exact .inl (.inl hn)
    · exact absurd hn hnv
    · exact .inl (.inr hn)
    · exact .inr hn
  refine ⟨a, ⟨(a.q ++ a.u ++ a.params).length, ((RHS.map (mapAtoms renamed)).map (lambdified (a.q ++ a.u ++ a.params))).map Except.ok⟩, ha, ?_,
    fun σ ρ hv => ?_⟩
  · simp only [sym2Fx, renameAll_eq o h, findArgs_again o h, ha, bind, Except.bind, pure, Except.pure]
    rw [lambdifyAll_eq hn hm]
  · have := sample_eq (groups := [a.q, a.u, a.params]) (by simp) hn (by simpa using h0) hm ρ (symValues ρ) fun _ => rfl
    have e : ((RHS.map (mapAtoms renamed)).map fun e => e.eval (symValues ρ)) = RHS.map fun e => e.eval σ := map_eval_renamed h hv
    simp only [List.map_cons, List.map_nil, (h5 σ ρ hv).1] at this
    rw [e] at this
    exact this

omit [PyChars] in
theorem mapM_never {A B E : Type} {f : A → Except E B} {l : List A} {a : A} (ha : a ∈ l) (h : ∀ b, f a ≠ .ok b) (bs : List B) :
    l.mapM f ≠ .ok bs := by
  intro hc
  induction l generalizing bs with
  | nil => simp at ha
  | cons c l ih =>
    rw [List.mapM_cons] at hc
    cases hfc : f c with
    | error e => simp [hfc, bind, Except.bind] at hc
    | ok b =>
      rcases List.mem_cons.1 ha with rfl | ha
      · exact h b hfc
      · cases hl : l.mapM f with
        | error e => simp [hfc, hl, bind, Except.bind] at hc
        | ok b' => exact ih ha b' hl

/-- C136 is false when an expression has the derivative of a state: the function raises for all arguments. -/
theorem C136_derivative_refuted {x : List Name} (hl : ∀ n ∈ x, Plain n) (hnd : x.Nodup) {u : UVars} (hu : FitU x u) (o : SetOrder)
    {RHS : List Expr} (h : ∀ e ∈ RHS, Named e) {e : Expr} (he : e ∈ RHS) {n : Name} (hn : n ∈ x) (hd : .dyn n 1 ∈ e.atoms) :
    ∃ F, sym2Fx o RHS (.list x) u = .ok F ∧ ∀ args r, F.call args ≠ .ok r := by
  obtain ⟨a, ha, h1, h2, h3, h4, h5, -, h7, h8⟩ := args_ok (q := .list x) (by simp) hl hnd hu false false o h
  rw [h7 rfl, h8 rfl, List.append_nil, List.append_nil] at h1 h4
  have hs : (a.q ++ a.u ++ a.params).Nodup := by
    refine h1.sublist ?_
    simp only [List.append_assoc]
    exact List.Sublist.append_left (List.sublist_append_right _ _) _
  classical
  have hlam : ∀ e' ∈ RHS.map (mapAtoms renamed), lambdify (a.q ++ a.u ++ a.params) e' = .ok
      (if ∃ q ∈ e'.atoms, ∀ n ∈ a.q ++ a.u ++ a.params, q ≠ .sym n then .error .name else .ok (lambdified (a.q ++ a.u ++ a.params) e')) := by
    intro e' _
    unfold lambdify
    rw [if_neg (not_not.2 hs)]
    split <;> rfl
  refine ⟨_, by
    simp only [sym2Fx, renameAll_eq o h, findArgs_again o h, ha, bind, Except.bind, pure, Except.pure]
    rw [Exc.mapM_eq hlam], fun args r hc => ?_⟩
  obtain ⟨s, hr⟩ := h e he _ hd
  have hsv : s ∈ a.v := by
    have hmem := (h5 (fun q => match rename q with | .ok t => if t = s then 1 else 0 | .error _ => 0)
      (fun t => if t = s then 1 else 0) (fun q t ht => by simp only [ht])).2.1
    have h1 : (1 : ℝ) ∈ a.v.map (fun t => if t = s then (1 : ℝ) else 0) := by
      rw [hmem]
      exact List.mem_map.2 ⟨n, hn, by simp only [hr, if_true]⟩
    obtain ⟨t, ht, h2⟩ := List.mem_map.1 h1
    split at h2
    · next h3 => exact h3 ▸ ht
    · norm_num at h2
  have hns : s ∉ a.q ++ a.u ++ a.params := by
    intro hm
    simp only [List.nodup_append, List.mem_append] at h1 hm
    rcases hm with (hm | hm) | hm
    · exact h1.1.1.2.2 s hm s hsv rfl
    · exact h1.1.2.2 s (.inr hsv) s hm rfl
    · exact h1.2.2 s (.inl (.inr hsv)) s hm rfl
  have hbad : ∃ q ∈ (mapAtoms renamed e).atoms, ∀ n ∈ a.q ++ a.u ++ a.params, q ≠ .sym n := by
    refine ⟨.sym s, ?_, fun n hn hc => hns (by cases hc; exact hn)⟩
    rw [atoms_mapAtoms]
    exact List.mem_map.2 ⟨_, hd, by simp only [renamed, hr]⟩
  simp only [NumFun.call, bind, Except.bind] at hc
  split at hc
  · cases hc
  · next parts _ =>
    split at hc
    · cases hc
    · next rs hrs =>
      refine mapM_never (a := .error .name) ?_ ?_ rs hrs
      · exact List.mem_map.2 ⟨_, List.mem_map.2 ⟨e, he, rfl⟩, if_pos hbad⟩
      · intro b hb
        unfold callOne at hb
        split at hb <;> cases hb

omit [PyChars] in
theorem only_one {A : Type} {l : List A} {c : A} (hn : l.Nodup) (hc : c ∈ l) (h : ∀ x ∈ l, x = c) : l = [c] := by
  have := List.eq_replicate_of_mem h
  rw [this] at hn ⊢
  rw [List.nodup_replicate] at hn
  have : 0 < l.length := List.length_pos_of_mem hc
  rw [show l.length = 1 by omega]
  rfl

/-- C136 is false for states given by their number, which are documented to be `x_i`: in `x_0' = x_0` with one state, `x_0` is a parameter, and the value is
that parameter for all states. -/
theorem C136_int_refuted (o : SetOrder) : ∃ a F, findArgs o [.atom (.dyn (indexed 'x' 0) 0)] (.int 1) .none false false = .ok a ∧
    a.params = [indexed 'x' 0] ∧ sym2Fx o [.atom (.dyn (indexed 'x' 0) 0)] (.int 1) .none = .ok F ∧
    (∀ s p, F.call [.vec [s], .vec [], .vec [p]] = .ok (.vec [p])) ∧ ∀ s, F.call [.vec [s], .vec [], .vec []] = .error (.num .typeError) := by
  have hr : rename (.dyn (indexed 'x' 0) 0) = .ok (indexed 'x' 0) := by
    simp only [rename, diffToSymb, Except.map]
    rw [indexed, std_other (long_not_short _ _)]
  have hnamed : ∀ e ∈ [Expr.atom (.dyn (indexed 'x' 0) 0)], Named e := by
    intro e he q hq
    rw [List.mem_singleton.1 he] at hq
    simp only [Expr.atoms, List.mem_singleton] at hq
    exact ⟨_, hq ▸ hr⟩
  have hre : mapAtoms renamed (.atom (.dyn (indexed 'x' 0) 0)) = .atom (.sym (indexed 'x' 0)) := by simp only [mapAtoms, renamed, hr]
  obtain ⟨a, ha, h1, -, -, -, -, -, h7, h8⟩ := args_ok (q := .int 1) (by simp)
    (fun n hn => by obtain ⟨i, -, rfl⟩ := List.mem_map.1 hn; exact plain_indexed (.inl rfl) i) (range_nodup' _ _)
    (u := .none) trivial false false o hnamed
  have hfa : findArguments [o.sym (.atom (.sym (indexed 'x' 0)))] (.int 1) .none false false = .ok a := by
    have := ha
    rw [findArgs_eq o hnamed] at this
    simp only [List.map_cons, List.map_nil, hre] at this
    exact liftN_ok this
  obtain ⟨hq, hv, hu⟩ := find_int hfa
  have hsym : ∀ n ∈ o.sym (.atom (.sym (indexed 'x' 0))), n = indexed 'x' 0 := by
    intro n hn
    have := (o.sym_mem _ _).1 hn
    simpa [Expr.atoms] using this
  have hx : indexed 'x' 0 ∈ o.sym (.atom (.sym (indexed 'x' 0))) := (o.sym_mem _ _).2 (by simp [Expr.atoms])
  have hu0 : a.u = [] := by
    refine List.eq_nil_iff_forall_not_mem.2 fun n hn => ?_
    obtain ⟨k, rfl⟩ := hu n hn
    obtain ⟨s, hs, hm⟩ := C53_found hfa (.inr ⟨rfl, hn⟩)
    rw [List.mem_singleton.1 hs] at hm
    have := hsym _ hm
    simp [indexed] at this
  have hin : indexed 'x' 0 ∈ a.params := by
    have := C53_cover hfa (s := _) (by simp) hx
    rw [hq, hv, hu0, h7 rfl, h8 rfl] at this
    simpa [Names.range, indexed] using this
  have hp : a.params = [indexed 'x' 0] := by
    refine only_one ?_ hin fun n hn => ?_
    · refine h1.sublist ?_
      exact (List.sublist_append_right _ _).trans (List.sublist_append_left _ _)
    · obtain ⟨s, hs, hm⟩ := C53_found hfa (.inl (List.mem_append_left _ hn))
      rw [List.mem_singleton.1 hs] at hm
      exact hsym _ hm
  have hvars : a.q ++ a.u ++ a.params = [indexed 'q' 0, indexed 'x' 0] := by rw [hq, hu0, hp]; rfl
  have hne : indexed 'q' 0 ≠ indexed 'x' 0 := by simp [indexed]
  have hnd : ([indexed 'q' 0, indexed 'x' 0] : List Name).Nodup := by simp [hne]
  have hm : ∀ e ∈ [Expr.atom (.sym (indexed 'x' 0))], ∀ q ∈ e.atoms, ∃ n ∈ [indexed 'q' 0, indexed 'x' 0], q = .sym n := by
    intro e he q hq
    rw [List.mem_singleton.1 he] at hq
    exact ⟨indexed 'x' 0, by simp, by simpa [Expr.atoms] using hq⟩
  refine ⟨a, ⟨2, ([Expr.atom (.sym (indexed 'x' 0))].map (lambdified [indexed 'q' 0, indexed 'x' 0])).map Except.ok⟩, ha, hp, ?_, ?_, ?_⟩
  · have hra : [Expr.atom (.dyn (indexed 'x' 0) 0)].mapM (renameExpr o) = .ok [.atom (.sym (indexed 'x' 0))] := by
      rw [renameAll_eq o hnamed]
      simp only [List.map_cons, List.map_nil, hre]
    have hag := findArgs_again o hnamed (.int 1) .none false false
    simp only [List.map_cons, List.map_nil, hre] at hag
    simp only [sym2Fx, hra, hag, ha, bind, Except.bind, pure, Except.pure]
    rw [hvars, lambdifyAll_eq hnd hm]
    rfl
  · intro s p
    have := sample_eq (groups := [[indexed 'q' 0], [], [indexed 'x' 0]]) (vars := [indexed 'q' 0, indexed 'x' 0]) rfl hnd (by simp) hm
      (fun n => if n = indexed 'x' 0 then p else s) (symValues fun n => if n = indexed 'x' 0 then p else s) fun _ => rfl
    simpa [hne, Expr.eval, symValues] using this
  · intro s
    rfl

/-- The functions of a pendulum, at one point and for series: its acceleration depends on its angle. -/
example : (∃ a F G, findArgs textOrder [pendulum] (.int 1) .none false false = .ok a ∧ rhs2numpy textOrder [pendulum] (.int 1) .none "x" = .ok F ∧
    rhs2numpy textOrder [pendulum] (.int 1) .none "q" = .ok G) ∧ ∀ a, ∀ e ∈ [pendulum], Varies (qNames (.int 1)) a e := by
  refine ⟨?_, fun a e he => .inl ⟨indexed 'q' 0, by simp [qNames, Names.range], 0, by omega, ?_⟩⟩
  · obtain ⟨a, F, G, h1, h2, h3, -⟩ := C135_sample (q := .int 1) (by simp)
      (fun n hn => by obtain ⟨i, -, rfl⟩ := List.mem_map.1 hn; exact plain_indexed (.inl rfl) i) (range_nodup' _ _)
      (u := .none) trivial textOrder (RHS := [pendulum]) (by simpa using pendulum_named.1) (by simp [qNames, Names.range])
      (by simp [qNames, Names.range])
    exact ⟨a, F, G, h1, h2, h3⟩
  · rw [List.mem_singleton.1 he]
    simp [pendulum, Expr.atoms]

/-- A state that decays: its derivative does not depend on derivatives. -/
example : ∀ e ∈ [Expr.mul (.num (-1)) (.atom (.dyn (indexed 'x' 0) 0))], ∀ q ∈ e.atoms, ∀ n ∈ qNames (.list [indexed 'x' 0]),
    rename q ≠ rename (.dyn n 1) := by
  intro e he q hq n hn
  rw [List.mem_singleton.1 he] at hq
  simp only [Expr.atoms, List.mem_append, List.not_mem_nil, false_or, List.mem_singleton] at hq
  have hn' : n = indexed 'x' 0 := by simpa [qNames] using hn
  rw [hq, hn']
  simp only [rename, diffToSymb, Except.map, isQ, indexed, List.take]
  rw [std_other (long_not_short _ _)]
  have h1 : ¬('x' = 'q') := by decide
  simp only [List.cons.injEq, h1, false_and, if_false, decide_false, Bool.false_and, Bool.false_eq_true, derivName, List.cons_append]
  rw [std_other (long_not_short _ _)]
  simp [dots]

/-- Free fall: the acceleration is a number. -/
example (a : Args) : ∃ e ∈ [Expr.num (-9.81)], ∀ x ∈ e.atoms, ∃ s ∈ a.params, rename x = .ok s := ⟨.num (-9.81), by simp, by simp [Expr.atoms]⟩

end Chords.Props
