import Verif.Model.BaryCas
import Verif.Props.CasFuncs
import Verif.Props.Bary

/-! # C159: the compiled end functions give the value of the polynomial at the end -/

namespace Chords.Props
open Names CasFuncs Bary BaryCas Points Spec Polynomial Finset

variable [PyChars]

omit [PyChars] in
theorem coefNames_nodup (N : ℕ) : (coefNames N).Nodup := by
  refine List.Nodup.map_on (fun i _ j _ h => ?_) List.nodup_range
  simp only [List.cons.injEq, true_and] at h
  have := congrArg (Nat.ofDigitChars 10 · 0) h
  simpa using this

omit [PyChars] in
theorem coefNames_length (N : ℕ) : (coefNames N).length = N := by simp [coefNames]

/-- The value of an expression of the symbols, where they have the values of a vector. -/
noncomputable def atVec (N : ℕ) (y : List ℝ) : Quantity → ℝ
  | .sym n => y.getD ((coefNames N).idxOf n) 0
  | .dyn _ _ => 0

/-- An expression is made of the symbols and has the values of a function. -/
def Gives (N : ℕ) (e : Expr) (f : (ℕ → ℝ) → ℝ) : Prop :=
  (∀ q ∈ e.atoms, ∃ n ∈ coefNames N, q = .sym n) ∧ ∀ y : List ℝ, e.eval (atVec N y) = f (arr y)

omit [PyChars] in
theorem coefAt_gives {N ii : ℕ} (h : ii < N) : ∃ e, coefAt (coefNames N) ii = .ok e ∧ Gives N e fun y => y ii := by
  have hl : ii < (coefNames N).length := by rwa [coefNames_length]
  refine ⟨.atom (.sym ((coefNames N)[ii])), by simp [coefAt, List.getElem?_eq_getElem hl], ?_, fun y => ?_⟩
  · intro q hq
    simp only [Expr.atoms, List.mem_singleton] at hq
    exact ⟨_, List.getElem_mem hl, hq⟩
  · simp only [Expr.eval, atVec, (coefNames_nodup N).idxOf_getElem ii hl]
    rfl

omit [PyChars] in
theorem extpoint_gives (N : ℕ) (sup : ℕ → ℝ) (inf : ℝ) : ∃ e, extpointExpr N (coefNames N) sup inf = .ok e ∧
    Gives N e fun y => (∑ ii ∈ range N, y ii * sup ii) / inf := by
  obtain ⟨step, hstep⟩ : ∃ step : Expr → ℕ → Except EErr Expr, step = fun acc ii => do
    let c ← coefAt (coefNames N) ii
    return Expr.add acc (.mul c (.num (sup ii))) := ⟨_, rfl⟩
  have key : ∀ k ≤ N, ∃ e, (List.range k).foldlM step (Expr.num 0) = .ok e ∧ Gives N e fun y => ∑ ii ∈ range k, y ii * sup ii := by
    intro k
    induction k with
    | zero => exact fun _ => ⟨_, rfl, by simp [Expr.atoms], fun y => by simp [Expr.eval]⟩
    | succ k ih =>
      intro hk
      obtain ⟨e, he, g1, g2⟩ := ih (by omega)
      obtain ⟨c, hc, k1, k2⟩ := coefAt_gives (N := N) (ii := k) (by omega)
      refine ⟨.add e (.mul c (.num (sup k))), ?_, ?_, fun y => ?_⟩
      · rw [List.range_succ, List.foldlM_append, he]
        simp [hstep, hc, bind, Except.bind, pure, Except.pure]
      · intro q hq
        simp only [Expr.atoms, List.mem_append, List.not_mem_nil, or_false] at hq
        exact hq.elim (g1 q) (k1 q)
      · simp only [Expr.eval, g2, k2, sum_range_succ]
  obtain ⟨e, he, g1, g2⟩ := key N le_rfl
  refine ⟨.mul e (.num inf⁻¹), ?_, ?_, fun y => ?_⟩
  · unfold extpointExpr
    rw [← hstep, he]
    rfl
  · simpa [Expr.atoms] using g1
  · simp only [Expr.eval, g2, div_eq_mul_inv]

omit [PyChars] in
theorem extremeExpr_gives {scheme mode point : String} {N order : ℕ} (hN : 0 < N) {f : (ℕ → ℝ) → ℝ} (hf : baryExtreme scheme N mode point order = .ok f) :
    ∃ e, extremeExpr scheme N mode point order (coefNames N) = .ok e ∧ Gives N e f := by
  have h0 := coefAt_gives (N := N) (ii := 0) hN
  have h1 := coefAt_gives (N := N) (ii := N - 1) (by omega)
  have hg : ∀ (v t : Except Err (List ℝ)) (p : ℝ), (do
      let v_arr ← v
      let t_arr ← t
      return fun coefs : ℕ → ℝ => (∑ ii ∈ range N, coefs ii * (arr v_arr ii / (p - arr t_arr ii))) / ∑ i ∈ range N, arr v_arr i / (p - arr t_arr i)) = .ok f →
      ∃ e, (do
        let v_arr ← liftE v
        let t_arr ← liftE t
        extpointExpr N (coefNames N) (fun i => arr v_arr i / (p - arr t_arr i)) (∑ i ∈ range N, arr v_arr i / (p - arr t_arr i))) = .ok e ∧ Gives N e f := by
    intro v t p h
    cases v with
    | error e => simp [bind, Except.bind] at h
    | ok v_arr =>
      cases t with
      | error e => simp [bind, Except.bind] at h
      | ok t_arr =>
        simp only [bind, Except.bind, pure, Except.pure, Except.ok.injEq] at h
        obtain ⟨e, he, k⟩ := extpoint_gives N (fun i => arr v_arr i / (p - arr t_arr i)) (∑ i ∈ range N, arr v_arr i / (p - arr t_arr i))
        exact ⟨e, by simpa [liftE, bind, Except.bind] using he, h ▸ k⟩
  unfold baryExtreme at hf
  unfold extremeExpr
  simp only [coefNames_length] at hf ⊢
  split_ifs at hf ⊢ <;> first
    | exact hg _ _ _ hf
    | (cases hf; first | exact h0 | exact h1)
    | cases hf

/-- An expression of the symbols, compiled, is its function. -/
theorem compile_gives {N : ℕ} {e : Expr} {f : (ℕ → ℝ) → ℝ} (h : Gives N e f) : ∃ g, sympy2casadi e (coefNames N) = .ok g ∧ ∀ y, g y = f (arr y) := by
  refine ⟨fun y => e.eval (atVec N y), ?_, h.2⟩
  unfold sympy2casadi
  rw [if_neg (not_not.2 (coefNames_nodup N)), if_neg]
  · congr 1
  · rintro ⟨q, hq, hn⟩
    obtain ⟨n, hn', rfl⟩ := h.1 q hq
    exact hn n hn' rfl

theorem extremeCas_gives {scheme mode point : String} {N order : ℕ} (hN : 0 < N) {f : (ℕ → ℝ) → ℝ} (hf : baryExtreme scheme N mode point order = .ok f) :
    ∃ F, extremeCas scheme N mode point order = .ok F ∧ F.sizes = [N] ∧ ∀ y, F.run [y] = [f (arr y)] := by
  obtain ⟨e, he, h⟩ := extremeExpr_gives hN hf
  obtain ⟨g, hg, k⟩ := compile_gives h
  refine ⟨⟨[N], fun args => [g (arg args 0)]⟩, ?_, rfl, fun y => ?_⟩
  · simp only [extremeCas, he, hg, liftC, bind, Except.bind, pure, Except.pure]
  · simp [arg, k]

/-- C159, data at the collocation points: for every scheme and order, the compiled functions take a vector with as many numbers as points and return the value at the
start and at the end of the polynomial through them. -/
theorem C159_u {scheme : String} (hs : scheme ∈ implemented) {order : ℕ} (ho : 1 ≤ order) {N : ℕ} (hN : minPoints scheme ≤ N) :
    ∃ coll F G, collPoints N scheme order = .ok coll ∧ extremeCas scheme N "u" "start" order = .ok F ∧ extremeCas scheme N "u" "end" order = .ok G ∧
      F.sizes = [N] ∧ G.sizes = [N] ∧ ∀ p : ℝ[X], p.degree < N → F.run [coll.map p.eval] = [p.eval (-1)] ∧ G.run [coll.map p.eval] = [p.eval 1] := by
  have hN1 : 0 < N := by unfold minPoints at hN; split_ifs at hN <;> omega
  obtain ⟨coll, f, g, hc, hf, hg, h⟩ := C25_u hs ho hN
  obtain ⟨coll', hc', hsh⟩ := coll_shape hs ho hN
  rw [hc] at hc'
  cases hc'
  obtain ⟨F, hF, F1, F2⟩ := extremeCas_gives hN1 hf
  obtain ⟨G, hG, G1, G2⟩ := extremeCas_gives hN1 hg
  refine ⟨coll, F, G, hc, hF, hG, F1, G1, fun p hp => ?_⟩
  obtain ⟨e1, e2⟩ := h p hp (arr (coll.map p.eval)) fun i hi => by
    have : i < coll.length := by rw [hsh.length]; exact hi
    simp [arr, List.getD_eq_getElem?_getD, List.getElem?_eq_getElem this]
  rw [F2, G2, e1, e2]
  exact ⟨rfl, rfl⟩

/-- C159, data at the nodes, orders up to 2, with the functions of that name too. -/
theorem C159_x {scheme : String} (hs : scheme ∈ implemented) {order : ℕ} (ho : order ≤ 2) {N : ℕ} (hN : minPoints scheme ≤ N) :
    ∃ n nodes F G F' G', nColToNNodes scheme N = .ok n ∧ nodePoints n scheme = .ok nodes ∧ extremeCas scheme n "x" "start" order = .ok F ∧
      extremeCas scheme n "x" "end" order = .ok G ∧ startPFunCas n scheme = .ok F' ∧ endPFunCas n scheme = .ok G' ∧
      F.sizes = [n] ∧ G.sizes = [n] ∧ F'.sizes = [n] ∧ G'.sizes = [n] ∧ ∀ p : ℝ[X], p.degree < n →
        F.run [nodes.map p.eval] = [p.eval (-1)] ∧ G.run [nodes.map p.eval] = [p.eval 1] ∧
        F'.run [nodes.map p.eval] = [p.eval (-1)] ∧ G'.run [nodes.map p.eval] = [p.eval 1] := by
  obtain ⟨n, nodes, f, g, h1, h2, hf, hg, h⟩ := C25_x hs ho hN
  obtain ⟨n', nodes', f', g', h1', h2', hf', hg', h'⟩ := C25_x hs (order := 2) le_rfl hN
  rw [h1] at h1'
  cases h1'
  rw [h2] at h2'
  cases h2'
  obtain ⟨coll, n', nodes', full, s, s', k1, k2, k3, k4, k5, k6, hlen, hsort, -⟩ := C21_aligned hs hN
  rw [h1] at k2
  cases k2
  rw [h2] at k3
  cases k3
  have hN1 : 1 ≤ N := by unfold minPoints at hN; split_ifs at hN <;> omega
  have hn1 : 0 < n := by
    unfold nColToNNodes at h1
    split_ifs at h1 <;> simp at h1 <;> omega
  obtain ⟨F, hF, F1, F2⟩ := extremeCas_gives hn1 hf
  obtain ⟨G, hG, G1, G2⟩ := extremeCas_gives hn1 hg
  obtain ⟨F', hF', F1', F2'⟩ := extremeCas_gives hn1 hf'
  obtain ⟨G', hG', G1', G2'⟩ := extremeCas_gives hn1 hg'
  refine ⟨n, nodes, F, G, F', G', h1, h2, hF, hG, hF', hG', F1, G1, F1', G1', fun p hp => ?_⟩
  have hy : ∀ i < n, arr (nodes.map p.eval) i = p.eval (arr nodes i) := fun i hi => by
    have : i < nodes.length := by rw [hlen]; exact hi
    simp [arr, List.getD_eq_getElem?_getD, List.getElem?_eq_getElem this]
  obtain ⟨e1, e2⟩ := h p hp _ hy
  obtain ⟨e3, e4⟩ := h' p hp _ hy
  rw [F2, G2, F2', G2', e1, e2, e3, e4]
  exact ⟨rfl, rfl, rfl, rfl⟩

/-- The end of a parabola from its values at three Gauss points. -/
example : ∃ coll F G, collPoints 3 "LG" 2 = .ok coll ∧ extremeCas "LG" 3 "u" "start" = .ok F ∧ extremeCas "LG" 3 "u" "end" = .ok G ∧
    F.run [coll.map fun t => t ^ 2 + t] = [0] ∧ G.run [coll.map fun t => t ^ 2 + t] = [2] := by
  obtain ⟨coll, F, G, hc, hF, hG, -, -, h⟩ := C159_u (scheme := "LG") (by decide) (order := 2) (by norm_num) (N := 3) (by decide)
  obtain ⟨h1, h2⟩ := h (X ^ 2 + X) (by
    refine lt_of_le_of_lt (degree_add_le _ _) ?_
    rw [degree_X_pow, degree_X]
    norm_num)
  simp only [eval_add, eval_pow, eval_X] at h1 h2
  norm_num at h1 h2
  exact ⟨coll, F, G, hc, hF, hG, h1, h2⟩

end Chords.Props
