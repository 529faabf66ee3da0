import Verif.Props.Handles

/-! # C198: independent systems posed in one problem are as independent as in problems of their own -/

namespace Chords.Together
open Finset Chords.Points Chords.Bary Chords.BuTd Chords.Equi Chords.PhScheme Chords.Problem Chords.Spec

/-- The columns of `k` of the `n` coordinates, from coordinate `a` on, in each of the blocks. -/
def cols (n a k : ℕ) (y : ℕ → ℝ) : ℕ → ℝ := fun c => y (n * (c / k) + (a + c % k))

/-- The columns from `m` on. -/
def from' (m : ℕ) (y : ℕ → ℝ) : ℕ → ℝ := fun c => y (m + c)

/-- The variables of one of the systems: `k` coordinates from `a` on, controls from `m` on and multipliers from `l` on. -/
def part (n a k m l : ℕ) (v : Vars) : Vars := ⟨fun i => cols n a k (v.x i), fun i => cols n a k (v.xd i), fun i => from' m (v.u i), fun i => from' l (v.lam i)⟩

/-- Two systems side by side: first the coordinates, controls and multipliers of one, then those of the other. The first system has `nA` coordinates,
`mA` controls and `lA` multipliers, and the second one `nB` coordinates. -/
def both (nA nB mA lA : ℕ) (A B : Dyn) : Dyn := fun x xd u l =>
  A (cols (nA + nB) 0 nA x) (cols (nA + nB) 0 nA xd) (from' 0 u) (from' 0 l) ++
    B (cols (nA + nB) nA nB x) (cols (nA + nB) nA nB xd) (from' mA u) (from' lA l)

/-! ## Columns -/

/-- The entries of coordinate `j`. -/
private def blk (y : ℕ → ℕ → ℝ) (n j p i : ℕ) : ℝ := y i (n * p + j)

/-- The levels of one coordinate. -/
private def lv (order : ℕ) (X D : ℕ → ℕ → ℝ) (p i : ℕ) : ℝ := if p < order then X p i else D (order - 1) i

private theorem lev_eq (v : Vars) (order n p i j : ℕ) : v.lev order n p i j = lv order (blk v.x n j) (blk v.xd n j) p i := rfl

private theorem cols_eq {n a k j : ℕ} (hj : j < k) (y : ℕ → ℝ) (p : ℕ) : cols n a k y (k * p + j) = y (n * p + (a + j)) := by
  have hk : 0 < k := by omega
  simp [cols, Nat.mul_add_div hk, Nat.mul_add_mod, Nat.div_eq_of_lt hj, Nat.mod_eq_of_lt hj]

private theorem blk_x {n a k m l j : ℕ} (hj : j < k) (v : Vars) : blk (part n a k m l v).x k j = blk v.x n (a + j) := by
  funext p i
  exact cols_eq hj (v.x i) p

private theorem blk_xd {n a k m l j : ℕ} (hj : j < k) (v : Vars) : blk (part n a k m l v).xd k j = blk v.xd n (a + j) := by
  funext p i
  exact cols_eq hj (v.xd i) p

private theorem lt_add {nA nB : ℕ} {R : ℕ → Prop} : (∀ j < nA + nB, R j) ↔ (∀ j < nA, R (0 + j)) ∧ ∀ j < nB, R (nA + j) := by
  constructor
  · exact fun h => ⟨fun j hj => h _ (by omega), fun j hj => h _ (by omega)⟩
  · rintro ⟨h1, h2⟩ j hj
    by_cases hA : j < nA
    · simpa using h1 j hA
    · have := h2 (j - nA) (by omega)
      rwa [show nA + (j - nA) = j by omega] at this

private theorem cols_iff {m n : ℕ} {R : ℕ → Prop} : (∀ c < m * n, R c) ↔ ∀ j < n, ∀ p < m, R (n * p + j) := by
  constructor
  · intro h j hj p hp
    exact h _ (by nlinarith [Nat.mul_le_mul_left n (Nat.succ_le_of_lt hp)])
  · intro h c hc
    have hn : 0 < n := Nat.pos_of_ne_zero (by rintro rfl; simp at hc)
    have := h (c % n) (Nat.mod_lt _ hn) (c / n) (Nat.div_lt_of_lt_mul (by rwa [mul_comm] at hc))
    rwa [Nat.div_add_mod] at this

private theorem zero_append (a b : List ℝ) : zero (a ++ b) ↔ zero a ∧ zero b := by
  simp [zero, or_imp, forall_and]

/-- The columns of the additional variables. -/
def qpart (a : ℕ) (q : ℕ → ℕ → ℝ) : ℕ → ℕ → ℝ := fun c => from' a (q c)

/-- Conditions on one coordinate. -/
private abbrev Cond := (ℕ → ℕ → ℝ) → (ℕ → ℕ → ℝ) → (ℕ → ℝ) → Prop

/-- Conditions on each coordinate separately. -/
private def each (K : Cond) (n : ℕ) (v : Vars) (q : ℕ → ℕ → ℝ) : Prop := ∀ j < n, K (blk v.x n j) (blk v.xd n j) fun c => q c j

private theorem each_add {K : Cond} {nA nB mA lA : ℕ} {v : Vars} {q : ℕ → ℕ → ℝ} :
    each K (nA + nB) v q ↔ each K nA (part (nA + nB) 0 nA 0 0 v) (qpart 0 q) ∧ each K nB (part (nA + nB) nA nB mA lA v) (qpart nA q) := by
  unfold each
  rw [lt_add]
  refine and_congr (forall_congr' fun j => imp_congr_right fun hj => ?_) (forall_congr' fun j => imp_congr_right fun hj => ?_)
  · rw [blk_x hj, blk_xd hj]; rfl
  · rw [blk_x hj, blk_xd hj]; rfl

/-- Conditions that are conditions on each coordinate separately. -/
private def Sep (P : ℕ → Vars → (ℕ → ℕ → ℝ) → Prop) : Prop := ∃ K, ∀ n v q, P n v q ↔ each K n v q

private theorem sep_and {P Q : ℕ → Vars → (ℕ → ℕ → ℝ) → Prop} (hP : Sep P) (hQ : Sep Q) : Sep fun n v q => P n v q ∧ Q n v q := by
  obtain ⟨K, hK⟩ := hP
  obtain ⟨L, hL⟩ := hQ
  refine ⟨fun X D Y => K X D Y ∧ L X D Y, fun n v q => ?_⟩
  beta_reduce
  rw [hK, hL]
  exact ⟨fun h j hj => ⟨h.1 j hj, h.2 j hj⟩, fun h => ⟨fun j hj => (h j hj).1, fun j hj => (h j hj).2⟩⟩

private theorem sep_forall {ι : Sort*} {P : ι → ℕ → Vars → (ℕ → ℕ → ℝ) → Prop} (h : ∀ i, Sep (P i)) : Sep fun n v q => ∀ i, P i n v q := by
  choose K hK using h
  refine ⟨fun X D Y => ∀ i, K i X D Y, fun n v q => ?_⟩
  simp only [hK]
  exact ⟨fun h j hj i => h i j hj, fun h i j hj => h j hj i⟩

private theorem sep_true : Sep fun _ _ _ => True := ⟨fun _ _ _ => True, fun _ _ _ => by simp [each]⟩

private theorem sep_each (K : Cond) : Sep fun n v q => ∀ j < n, K (blk v.x n j) (blk v.xd n j) fun c => q c j := ⟨K, fun _ _ _ => Iff.rfl⟩

private theorem sep_cols (m : ℕ) (R : (ℕ → ℝ) → (ℕ → ℝ) → Prop) : Sep fun n v _ => ∀ c < m * n, R (fun i => v.x i c) fun i => v.xd i c :=
  ⟨fun X D _ => ∀ p < m, R (X p) (D p), fun _ _ _ => cols_iff⟩

private theorem sep_shift (order r : ℕ) : Sep fun n v _ => shift order n r v :=
  ⟨fun X D _ => ∀ p < order - 1, X (p + 1) r = D p r, fun n v _ => by
    unfold shift each
    beta_reduce
    rw [cols_iff]
    refine forall_congr' fun j => imp_congr_right fun _ => forall_congr' fun p => imp_congr_right fun _ => ?_
    unfold blk
    rw [show n * (p + 1) + j = n + (n * p + j) by ring]⟩

private theorem dyn_add {A B : Dyn} {nA nB mA lA : ℕ} {v : Vars} {rows : List ℕ} :
    dynConstraints (both nA nB mA lA A B) rows v ↔ dynConstraints A rows (part (nA + nB) 0 nA 0 0 v) ∧ dynConstraints B rows (part (nA + nB) nA nB mA lA v) := by
  unfold dynConstraints
  rw [← forall_and]
  refine forall_congr' fun ii => ?_
  rw [← imp_and]
  exact imp_congr_right fun _ => zero_append _ _

private theorem dyn_local {F : Dyn} {v w : Vars} {rows : List ℕ} (hx : v.x = w.x) (hd : v.xd = w.xd) (h : ∀ x xd i, F x xd (v.u i) (v.lam i) = F x xd (w.u i) (w.lam i))
    (H : dynConstraints F rows v) : dynConstraints F rows w := fun ii hi => by
  rw [← hx, ← hd, ← h]
  exact H ii hi

/-! ## One interval -/

/-- Problems with conditions on each coordinate and on the dynamics of some rows. -/
private def Shape {ε : Type} (f : Dyn → ℕ → Except ε (Vars → (ℕ → ℕ → ℝ) → Prop)) : Prop :=
  ∃ E : Except ε (Cond × (Dyn → Vars → Prop)), (∀ K, E = .ok K → ∀ A B nA nB mA lA v, K.2 (both nA nB mA lA A B) v ↔
    K.2 A (part (nA + nB) 0 nA 0 0 v) ∧ K.2 B (part (nA + nB) nA nB mA lA v)) ∧
    (∀ K, E = .ok K → ∀ F v w, v.x = w.x → v.xd = w.xd → (∀ x xd i, F x xd (v.u i) (v.lam i) = F x xd (w.u i) (w.lam i)) → K.2 F v → K.2 F w) ∧
    ∀ F n, f F n = E.map fun K v q => each K.1 n v q ∧ K.2 F v

private theorem shape_bind {ε α : Type} {x : Except ε α} {f : α → Dyn → ℕ → Except ε (Vars → (ℕ → ℕ → ℝ) → Prop)} (h : ∀ a, Shape (f a)) : Shape fun F n => x >>= fun a => f a F n := by
  cases x with
  | error e => exact ⟨.error e, nofun, nofun, fun F n => rfl⟩
  | ok a => exact h a

private theorem shape_ok {ε : Type} {P : ℕ → Vars → (ℕ → ℕ → ℝ) → Prop} (h : Sep P) {G : Dyn → Vars → Prop}
    (hG : ∀ A B nA nB mA lA v, G (both nA nB mA lA A B) v ↔ G A (part (nA + nB) 0 nA 0 0 v) ∧ G B (part (nA + nB) nA nB mA lA v))
    (hl : ∀ (F : Dyn) (v w : Vars), v.x = w.x → v.xd = w.xd → (∀ x xd i, F x xd (v.u i) (v.lam i) = F x xd (w.u i) (w.lam i)) → G F v → G F w)
    {f : Dyn → ℕ → Except ε (Vars → (ℕ → ℕ → ℝ) → Prop)} (hf : ∀ F n, ∃ C, f F n = .ok C ∧ ∀ v q, C v q ↔ P n v q ∧ G F v) : Shape f := by
  obtain ⟨K, hK⟩ := h
  refine ⟨.ok (K, G), fun _ e => by obtain rfl := Except.ok.inj e; exact hG, fun _ e => by obtain rfl := Except.ok.inj e; exact hl, fun F n => ?_⟩
  obtain ⟨C, h1, h2⟩ := hf F n
  rw [h1]
  refine congrArg Except.ok (funext fun v => funext fun q => propext ?_)
  rw [h2, hK]

private theorem Shape.split {ε : Type} {f : Dyn → ℕ → Except ε (Vars → (ℕ → ℕ → ℝ) → Prop)} (h : Shape f) (A B : Dyn) (nA nB mA lA : ℕ) :
    f (both nA nB mA lA A B) (nA + nB) = (do
      let P ← f A nA
      let Q ← f B nB
      return fun v q => P (part (nA + nB) 0 nA 0 0 v) (qpart 0 q) ∧ Q (part (nA + nB) nA nB mA lA v) (qpart nA q)) := by
  obtain ⟨E, hG, -, hE⟩ := h
  rw [hE, hE, hE]
  cases E with
  | error e => rfl
  | ok K =>
    refine congrArg Except.ok (funext fun v => funext fun q => propext ?_)
    show each _ _ _ _ ∧ _ ↔ (_ ∧ _) ∧ (_ ∧ _)
    rw [each_add (mA := mA) (lA := lA), hG K rfl]
    tauto

private theorem map_eq {ε : Type} {x a b : Except ε (Vars → Prop)} {f g : Vars → Vars} {r s : (ℕ → ℕ → ℝ) → ℕ → ℕ → ℝ}
    (h : x.map (fun C v (_ : ℕ → ℕ → ℝ) => C v) = (do
      let P ← a.map (fun C v (_ : ℕ → ℕ → ℝ) => C v)
      let Q ← b.map (fun C v (_ : ℕ → ℕ → ℝ) => C v)
      return fun v q => P (f v) (r q) ∧ Q (g v) (s q))) : x = (do
      let P ← a
      let Q ← b
      return fun v => P (f v) ∧ Q (g v)) := by
  cases x <;> cases a <;> cases b <;> simp [Except.map, bind, Except.bind, pure, Except.pure] at h ⊢
  all_goals first | exact h | (funext v; exact congrFun (congrFun h v) 0)

private theorem map_bind' {ε α β γ : Type} (x : Except ε α) (f : α → Except ε β) (h : β → γ) : (x >>= f).map h = x >>= fun a => (f a).map h := by
  cases x <;> rfl

private theorem Shape.local' {ε : Type} {f : Dyn → ℕ → Except ε (Vars → (ℕ → ℕ → ℝ) → Prop)} (h : Shape f) {F : Dyn} {n : ℕ} {C : Vars → (ℕ → ℕ → ℝ) → Prop} (hC : f F n = .ok C)
    {v w : Vars} {q r : ℕ → ℕ → ℝ} (hx : v.x = w.x) (hd : v.xd = w.xd) (hu : ∀ x xd i, F x xd (v.u i) (v.lam i) = F x xd (w.u i) (w.lam i)) (hq : ∀ c, ∀ j < n, q c j = r c j) (H : C v q) : C w r := by
  obtain ⟨E, -, hl, hE⟩ := h
  rw [hE] at hC
  cases E with
  | error e => exact absurd hC nofun
  | ok K =>
    obtain rfl := Except.ok.inj hC
    refine ⟨fun j hj => ?_, hl K rfl F v w hx hd hu H.2⟩
    have := H.1 j hj
    rw [← hx, ← hd]
    rwa [show (fun c => q c j) = fun c => r c j from funext fun c => hq c j hj] at this

private theorem bu_shape (scheme : String) (N order : ℕ) (t0 t1 : ℝ) : Shape fun F n => (buConstraints F scheme N order n t0 t1).map fun C v _ => C v := by
  unfold buConstraints
  have m : ∀ (full : List ℝ) s (mats : List (ℕ → ℕ → ℝ)), Sep fun n v _ => ∀ ii < order, ∀ i < full.length - 1, ∀ j < n,
      v.lev order n ii (i + 1) j = ∑ c ∈ range (order + N), mats.getD ii (fun _ _ => 0) i c * polynomialData order n (dynRows full.length s) v j c := fun full s mats =>
    sep_forall fun ii => sep_forall fun _ => sep_forall fun i => sep_forall fun _ => sep_each fun X D _ => lv order X D ii (i + 1) =
      ∑ c ∈ range (order + N), mats.getD ii (fun _ _ => 0) i c *
        if c < order then lv order X D c 0 else lv order X D order ((dynRows full.length s).getD (c - order) 0)
  have e : ∀ (a : ℕ → ℝ) r (rows : List ℕ), Sep fun n v _ => ∀ j < n, v.lev order n order r j = ∑ c ∈ range N, a c * v.lev order n order (rows.getD c 0) j := fun a r rows =>
    sep_each fun X D _ => lv order X D order r = ∑ c ∈ range N, a c * lv order X D order (rows.getD c 0)
  by_cases c1 : scheme ∈ gaussLike ++ radauInv <;> by_cases c2 : scheme ∈ gaussLike ++ radauLike <;>
    simp only [c1, c2, if_true, if_false, pure_bind, bind_assoc, map_bind']
  · refine shape_bind fun full => shape_bind fun s => shape_bind fun a => shape_bind fun b => shape_bind fun mats => shape_ok (sep_and (e a 0 _) (sep_and (e b _ _) (m full s mats))) (fun _ _ _ _ _ _ _ => dyn_add) (fun _ _ _ => dyn_local) fun F n => ⟨_, rfl, fun v q => by tauto⟩
  · refine shape_bind fun full => shape_bind fun s => shape_bind fun a => shape_bind fun mats => shape_ok (sep_and (e a 0 _) (sep_and sep_true (m full s mats))) (fun _ _ _ _ _ _ _ => dyn_add) (fun _ _ _ => dyn_local) fun F n => ⟨_, rfl, fun v q => by tauto⟩
  · refine shape_bind fun full => shape_bind fun s => shape_bind fun b => shape_bind fun mats => shape_ok (sep_and sep_true (sep_and (e b _ _) (m full s mats))) (fun _ _ _ _ _ _ _ => dyn_add) (fun _ _ _ => dyn_local) fun F n => ⟨_, rfl, fun v q => by tauto⟩
  · refine shape_bind fun full => shape_bind fun s => shape_bind fun mats => shape_ok (sep_and sep_true (sep_and sep_true (m full s mats))) (fun _ _ _ _ _ _ _ => dyn_add) (fun _ _ _ => dyn_local) fun F n => ⟨_, rfl, fun v q => by tauto⟩

/-- C198, bottom-up problems: for every scheme and order, also those that raise an error. -/
theorem C198_bu (A B : Dyn) (nA nB mA lA : ℕ) (scheme : String) (N order : ℕ) (t0 t1 : ℝ) :
    buConstraints (both nA nB mA lA A B) scheme N order (nA + nB) t0 t1 = (do
      let P ← buConstraints A scheme N order nA t0 t1
      let Q ← buConstraints B scheme N order nB t0 t1
      return fun v => P (part (nA + nB) 0 nA 0 0 v) ∧ Q (part (nA + nB) nA nB mA lA v)) := by
  exact map_eq ((bu_shape scheme N order t0 t1).split A B nA nB mA lA)

private theorem td_shape (scheme : String) (N order : ℕ) (t0 t1 : ℝ) : Shape fun F n => tdConstraints F scheme N order n t0 t1 := by
  unfold tdConstraints
  refine shape_bind fun full => shape_bind fun s => shape_bind fun D' => shape_bind fun L =>
    shape_ok (sep_forall fun ii => sep_forall fun (_ : ii < order + 1) => sep_forall fun i => sep_forall fun (_ : i < full.length) => sep_each fun X D Y =>
      lv order X D ii i = ∑ c ∈ range (order + N), (∑ l ∈ range (order + N), ((2 / (t1 - t0)) ^ ii * L i l) * matPow (order + N) D' ii l c) * Y c)
      (fun _ _ _ _ _ _ _ => dyn_add) (fun _ _ _ => dyn_local) fun F n => ⟨_, rfl, fun v q => Iff.rfl⟩

/-- C198, top-down problems. -/
theorem C198_td (A B : Dyn) (nA nB mA lA : ℕ) (scheme : String) (N order : ℕ) (t0 t1 : ℝ) :
    tdConstraints (both nA nB mA lA A B) scheme N order (nA + nB) t0 t1 = (do
      let P ← tdConstraints A scheme N order nA t0 t1
      let Q ← tdConstraints B scheme N order nB t0 t1
      return fun v q => P (part (nA + nB) 0 nA 0 0 v) (qpart 0 q) ∧ Q (part (nA + nB) nA nB mA lA v) (qpart nA q)) := by
  exact (td_shape scheme N order t0 t1).split A B nA nB mA lA

private theorem node_shape (scheme : String) (N order : ℕ) (t0 t1 : ℝ) : Shape fun F n => (nodeConstraints F scheme N order n t0 t1).map fun C v _ => C v := by
  unfold nodeConstraints
  by_cases c0 : scheme ∈ gauss2 ++ ["D2"] ∧ order ≠ 2
  · simp only [c0, and_self, ne_eq, not_false_eq_true, if_true]
    exact ⟨.error .assertion, nofun, nofun, fun F n => rfl⟩
  simp only [if_neg c0]
  clear c0
  have sc : ∀ n_nodes (D' : ℕ → ℕ → ℝ), Sep fun n v _ => (if scheme ∈ gauss2 ++ ["D2"] then
        fun v : Vars => (∀ i < n_nodes, ∀ j < n, v.lev order n 1 (nodeOff scheme + i) j
            = 2 / (t1 - t0) * ∑ c ∈ range n_nodes, D' i c * v.lev order n 0 (nodeOff scheme + c) j) ∧
          (∀ i < n_nodes, ∀ j < n, v.lev order n 2 (nodeOff scheme + i) j
            = 2 / (t1 - t0) * ∑ c ∈ range n_nodes, D' i c * v.lev order n 1 (nodeOff scheme + c) j)
      else fun v => ∀ i < n_nodes, ∀ col < order * n, v.xd (nodeOff scheme + i) col
            = 2 / (t1 - t0) * ∑ c ∈ range n_nodes, D' i c * v.x (nodeOff scheme + c) col) v := by
    intro n_nodes D'
    by_cases c : scheme ∈ gauss2 ++ ["D2"]
    · simp only [c, if_true]
      exact sep_and (sep_forall fun i => sep_forall fun _ => sep_each fun X D _ => lv order X D 1 (nodeOff scheme + i) = 2 / (t1 - t0) * ∑ c ∈ range n_nodes, D' i c * lv order X D 0 (nodeOff scheme + c))
        (sep_forall fun i => sep_forall fun _ => sep_each fun X D _ => lv order X D 2 (nodeOff scheme + i) = 2 / (t1 - t0) * ∑ c ∈ range n_nodes, D' i c * lv order X D 1 (nodeOff scheme + c))
    · simp only [c, if_false]
      exact sep_forall fun i => sep_forall fun _ => sep_cols order fun x xd => xd (nodeOff scheme + i) = 2 / (t1 - t0) * ∑ c ∈ range n_nodes, D' i c * x (nodeOff scheme + c)
  have e : ∀ (f : (ℕ → ℝ) → ℝ) r, Sep fun n v _ => (∀ col < order * n, v.x r col = f (fun c => v.x (nodeOff scheme + c) col)) ∧
      ∀ j < n, v.lev order n order r j = f (fun c => v.lev order n order (nodeOff scheme + c) j) := fun f r =>
    sep_and (sep_cols order fun x _ => x r = f fun c => x (nodeOff scheme + c)) (sep_each fun X D _ => lv order X D order r = f fun c => lv order X D order (nodeOff scheme + c))
  have g : ∀ A B nA nB mA lA v, (fun (F : Dyn) (v : Vars) => ∀ ii < N, zero (F (v.x (i0 scheme + ii)) (v.xd (i0 scheme + ii)) (v.u ii) (v.lam ii))) (both nA nB mA lA A B) v ↔
      (fun (F : Dyn) (v : Vars) => ∀ ii < N, zero (F (v.x (i0 scheme + ii)) (v.xd (i0 scheme + ii)) (v.u ii) (v.lam ii))) A (part (nA + nB) 0 nA 0 0 v) ∧
      (fun (F : Dyn) (v : Vars) => ∀ ii < N, zero (F (v.x (i0 scheme + ii)) (v.xd (i0 scheme + ii)) (v.u ii) (v.lam ii))) B (part (nA + nB) nA nB mA lA v) := by
    intro A B nA nB mA lA v
    beta_reduce
    rw [← forall_and]
    refine forall_congr' fun ii => ?_
    rw [← imp_and]
    exact imp_congr_right fun _ => zero_append _ _
  have gl : ∀ (F : Dyn) (v w : Vars), v.x = w.x → v.xd = w.xd → (∀ x xd i, F x xd (v.u i) (v.lam i) = F x xd (w.u i) (w.lam i)) →
      (fun (F : Dyn) (v : Vars) => ∀ ii < N, zero (F (v.x (i0 scheme + ii)) (v.xd (i0 scheme + ii)) (v.u ii) (v.lam ii))) F v →
      (fun (F : Dyn) (v : Vars) => ∀ ii < N, zero (F (v.x (i0 scheme + ii)) (v.xd (i0 scheme + ii)) (v.u ii) (v.lam ii))) F w := by
    intro F v w hx hd h H ii hi
    rw [← hx, ← hd, ← h]
    exact H ii hi
  by_cases c1 : scheme ∈ gaussInv <;> by_cases c2 : scheme ∈ gaussLike <;> simp only [c1, c2, if_true, if_false, pure_bind, bind_assoc, map_bind']
  · refine shape_bind fun n_nodes => shape_bind fun full => shape_bind fun D' => shape_bind fun a => shape_bind fun b => shape_ok (sep_and (sc n_nodes D') (sep_and (e a 0) (e b _))) g gl fun F n => ⟨_, rfl, fun v q => by tauto⟩
  · refine shape_bind fun n_nodes => shape_bind fun full => shape_bind fun D' => shape_bind fun a => shape_ok (sep_and (sc n_nodes D') (sep_and (e a 0) sep_true)) g gl fun F n => ⟨_, rfl, fun v q => by tauto⟩
  · refine shape_bind fun n_nodes => shape_bind fun full => shape_bind fun D' => shape_bind fun b => shape_ok (sep_and (sc n_nodes D') (sep_and sep_true (e b _))) g gl fun F n => ⟨_, rfl, fun v q => by tauto⟩
  · refine shape_bind fun n_nodes => shape_bind fun full => shape_bind fun D' => shape_ok (sep_and (sc n_nodes D') (sep_and sep_true sep_true)) g gl fun F n => ⟨_, rfl, fun v q => by tauto⟩

/-- C198, node based problems. -/
theorem C198_node (A B : Dyn) (nA nB mA lA : ℕ) (scheme : String) (N order : ℕ) (t0 t1 : ℝ) :
    nodeConstraints (both nA nB mA lA A B) scheme N order (nA + nB) t0 t1 = (do
      let P ← nodeConstraints A scheme N order nA t0 t1
      let Q ← nodeConstraints B scheme N order nB t0 t1
      return fun v => P (part (nA + nB) 0 nA 0 0 v) ∧ Q (part (nA + nB) nA nB mA lA v)) := by
  exact map_eq ((node_shape scheme N order t0 t1).split A B nA nB mA lA)

/-- C198, equispaced problems. -/
theorem C198_equispaced (A B : Dyn) (nA nB mA mB lA : ℕ) (scheme : String) (N order : ℕ) (t0 t1 : ℝ) :
    equiConstraints (both nA nB mA lA A B) scheme N order (nA + nB) (mA + mB) t0 t1 = (do
      let P ← equiConstraints A scheme N order nA mA t0 t1
      let Q ← equiConstraints B scheme N order nB mB t0 t1
      return fun v c => P (part (nA + nB) 0 nA 0 0 v) (part (nA + nB) 0 nA 0 0 c) ∧ Q (part (nA + nB) nA nB mA lA v) (part (nA + nB) nA nB mA lA c)) := by
  unfold equiConstraints
  cases h : restrTable scheme order with
  | error e => rfl
  | ok f =>
    refine congrArg Except.ok (funext fun v => funext fun c => propext ?_)
    have two : ∀ K : (ℕ → ℕ → ℝ) → (ℕ → ℕ → ℝ) → (ℕ → ℕ → ℝ) → (ℕ → ℕ → ℝ) → Prop,
        (∀ j < nA + nB, K (blk v.x (nA + nB) j) (blk v.xd (nA + nB) j) (blk c.x (nA + nB) j) (blk c.xd (nA + nB) j)) ↔
        (∀ j < nA, K (blk (part (nA + nB) 0 nA 0 0 v).x nA j) (blk (part (nA + nB) 0 nA 0 0 v).xd nA j) (blk (part (nA + nB) 0 nA 0 0 c).x nA j) (blk (part (nA + nB) 0 nA 0 0 c).xd nA j)) ∧
        ∀ j < nB, K (blk (part (nA + nB) nA nB mA lA v).x nB j) (blk (part (nA + nB) nA nB mA lA v).xd nB j) (blk (part (nA + nB) nA nB mA lA c).x nB j)
          (blk (part (nA + nB) nA nB mA lA c).xd nB j) := fun K => by
      rw [lt_add]
      refine and_congr (forall_congr' fun j => imp_congr_right fun hj => ?_) (forall_congr' fun j => imp_congr_right fun hj => ?_)
      · rw [blk_x hj, blk_xd hj, blk_x hj, blk_xd hj]
      · rw [blk_x hj, blk_xd hj, blk_x hj, blk_xd hj]
    have h1 := fun ii => two fun X D _ D' => ∀ p < order, f (fun p => lv order X D p ii) (fun p => lv order X D p (ii + 1)) (lv order X D order ii) (lv order X D order (ii + 1))
      ((t1 - t0) / N) (lv order (fun _ _ => 0) D' order ii) p = 0
    have h3 := fun ii => two fun X D X' D' => ∀ p < order, lv order X' D' p ii = halfX scheme order (fun p => lv order X D p ii) (fun p => lv order X D p (ii + 1))
      (lv order X D order ii) (lv order X D order (ii + 1)) ((t1 - t0) / N) p
    have c0 : ∀ (w : Vars) n i j, lv order (fun _ _ => 0) (blk w.xd n j) order i = w.lev order n order i j := fun w n i j => by
      simp [lv, Vars.lev, blk]
    simp only [c0] at h1
    have h5 : ∀ ii, _ ↔ _ := fun ii => lt_add (nA := mA) (nB := mB) (R := fun m => c.u ii m = centreU scheme (v.u ii m) (v.u (ii + 1) m))
    have z : ∀ (w : Vars) ii, zero (both nA nB mA lA A B (w.x ii) (w.xd ii) (w.u ii) (w.lam ii)) ↔ _ := fun w ii => zero_append _ _
    constructor
    · rintro ⟨a, b, d⟩
      exact ⟨⟨fun ii hi => ((h1 ii).1 (a ii hi)).1, fun ii hi => ((z v ii).1 (b ii hi)).1, fun hs => ⟨fun ii hi => ⟨((h3 ii).1 ((d hs).1 ii hi).1).1, ((z c ii).1 ((d hs).1 ii hi).2).1⟩,
          fun hp ii hi => ((h5 ii).1 ((d hs).2 hp ii hi)).1⟩⟩,
        ⟨fun ii hi => ((h1 ii).1 (a ii hi)).2, fun ii hi => ((z v ii).1 (b ii hi)).2, fun hs => ⟨fun ii hi => ⟨((h3 ii).1 ((d hs).1 ii hi).1).2, ((z c ii).1 ((d hs).1 ii hi).2).2⟩,
          fun hp ii hi => ((h5 ii).1 ((d hs).2 hp ii hi)).2⟩⟩⟩
    · rintro ⟨⟨a, b, d⟩, ⟨a', b', d'⟩⟩
      exact ⟨fun ii hi => (h1 ii).2 ⟨a ii hi, a' ii hi⟩, fun ii hi => (z v ii).2 ⟨b ii hi, b' ii hi⟩, fun hs => ⟨fun ii hi => ⟨(h3 ii).2 ⟨((d hs).1 ii hi).1, ((d' hs).1 ii hi).1⟩,
        (z c ii).2 ⟨((d hs).1 ii hi).2, ((d' hs).1 ii hi).2⟩⟩, fun hp ii hi => (h5 ii).2 ⟨(d hs).2 hp ii hi, (d' hs).2 hp ii hi⟩⟩⟩

/-! ## Several segments -/

private theorem mapM_map {ε α β γ : Type} {f : α → Except ε γ} {E : α → Except ε β} {φ : β → γ} (h : ∀ a, f a = (E a).map φ) (l : List α) :
    l.mapM f = (l.mapM E).map (List.map φ) := by
  induction l with
  | nil => rfl
  | cons a l ih =>
    rw [List.mapM_cons, List.mapM_cons, ih, h]
    cases E a with
    | error e => rfl
    | ok b => cases l.mapM E <;> rfl

/-- Segments with conditions on each coordinate. -/
private def SegShape (f : ℕ → Except BErr (Vars → (ℕ → ℕ → ℝ) → Prop)) : Prop := ∃ E : Except BErr Cond, ∀ n, f n = E.map fun K v q => each K n v q

private theorem seg_bind {α : Type} {x : Except BErr α} {f : α → ℕ → Except BErr (Vars → (ℕ → ℕ → ℝ) → Prop)} (h : ∀ a, SegShape (f a)) : SegShape fun n => x >>= fun a => f a n := by
  cases x with
  | error e => exact ⟨.error e, fun n => rfl⟩
  | ok a => exact h a

private theorem seg_ok {P : ℕ → Vars → (ℕ → ℕ → ℝ) → Prop} (h : Sep P) : SegShape fun n => .ok (P n) := by
  obtain ⟨K, hK⟩ := h
  exact ⟨.ok K, fun n => congrArg Except.ok (funext fun v => funext fun q => propext (hK n v q))⟩

/-- Values that depend on one coordinate. -/
private def ValShape (f : ℕ → Except BErr (Vars → ℕ → ℝ)) : Prop :=
  ∃ E : Except BErr ((ℕ → ℕ → ℝ) → (ℕ → ℕ → ℝ) → ℝ), ∀ n, f n = E.map fun k v j => k (blk v.x n j) (blk v.xd n j)

private theorem start_shape (scheme : String) (order : ℕ) (g : Seg) : ValShape fun n => hqdStart scheme order n g := by
  unfold hqdStart
  split
  · cases lift (extremeMatrix g.n scheme "start" order) with
    | error e => exact ⟨.error e, fun n => rfl⟩
    | ok a => exact ⟨.ok fun X D => ∑ c ∈ range g.n, a c * lv order X D order (g.col.getD c 0), fun n => rfl⟩
  · split
    · exact ⟨.ok fun X D => lv order X D order (g.col.getD 0 0), fun n => rfl⟩
    · exact ⟨.error _, fun n => rfl⟩

private theorem end_shape (scheme : String) (order : ℕ) (g : Seg) : ValShape fun n => hqdLast scheme order n g := by
  unfold hqdLast
  split
  · unfold hqdEnd
    split
    · cases lift (extremeMatrix g.n scheme "end" order) with
      | error e => exact ⟨.error e, fun n => rfl⟩
      | ok a => exact ⟨.ok fun X D => ∑ c ∈ range g.n, a c * lv order X D order (g.col.getD c 0), fun n => rfl⟩
    · split
      · exact ⟨.ok fun X D => lv order X D order (g.col.getD (g.col.length - 1) 0), fun n => rfl⟩
      · exact ⟨.error _, fun n => rfl⟩
  · exact ⟨.ok fun _ _ => 0, fun n => rfl⟩

/-- `buRes` of one coordinate. -/
private def br (mat : ℕ → ℕ → ℝ) (order : ℕ) (g : Seg) (X D : ℕ → ℕ → ℝ) (ii i : ℕ) : ℝ :=
  if i = 0 then lv order X D ii g.start
  else ∑ c ∈ range (order + g.n), mat (i - 1) c * if c < order then lv order X D c g.start else lv order X D order (g.col.getD (c - order) 0)

private theorem br_eq (mat : ℕ → ℕ → ℝ) (order n : ℕ) (g : Seg) (v : Vars) (ii i j : ℕ) : buRes mat order n g v ii i j = br mat order g (blk v.x n j) (blk v.xd n j) ii i := by
  cases i <;> rfl

private theorem seg_shape (mode : Mode) (scheme : String) (s : Slice) (order : ℕ) (g : Seg) : SegShape fun n => phSeg mode scheme s order n g := by
  cases mode with
  | td =>
    refine seg_bind fun D' => seg_bind fun L => seg_bind fun full => seg_ok ?_
    exact sep_and (sep_forall fun ii => sep_forall fun (_ : ii < order + 1) => sep_each fun X D Y =>
      (∀ m < g.col.length, lv order X D ii (g.col.getD m 0) = ∑ c ∈ range (order + g.n), (∑ l ∈ range (order + g.n), ((2 / g.h) ^ ii * L ((dynRows full.length s).getD m 0) l) * matPow (order + g.n) D' ii l c) * Y c) ∧
      lv order X D ii g.start = ∑ c ∈ range (order + g.n), (∑ l ∈ range (order + g.n), ((2 / g.h) ^ ii * L 0 l) * matPow (order + g.n) D' ii l c) * Y c ∧
      (ii ≤ order ∨ g.last = true → lv order X D ii g.stop = ∑ c ∈ range (order + g.n), (∑ l ∈ range (order + g.n), ((2 / g.h) ^ ii * L (full.length - 1) l) * matPow (order + g.n) D' ii l c) * Y c))
      (sep_and (sep_shift order g.stop) (sep_forall fun _ => sep_shift order g.start))
  | bu =>
    obtain ⟨E1, h1⟩ := start_shape scheme order g
    obtain ⟨E2, h2⟩ := end_shape scheme order g
    beta_reduce at h1 h2
    simp only [phSeg, phBu, h1, h2, map_bind']
    cases E1 with
    | error e => exact ⟨.error e, fun n => rfl⟩
    | ok k1 =>
    cases E2 with
    | error e => exact ⟨.error e, fun n => rfl⟩
    | ok k2 =>
    show SegShape fun n => ((List.range order).mapM fun ii => integrationMatrix g.n scheme ii g.h order) >>= fun mats => lift (buConstructionPoints g.n scheme order) >>= fun constr =>
      .ok fun v _ => buSeg (fun v j => k1 (blk v.x n j) (blk v.xd n j)) (fun v j => k2 (blk v.x n j) (blk v.xd n j)) (fun ii => mats.getD ii fun _ _ => 0) constr.length
        (dynRows (constr.length + 1) s) order n g v
    refine seg_bind fun mats => seg_bind fun constr => seg_ok ?_
    simp only [buSeg, br_eq]
    exact sep_and (sep_each fun X D _ => lv order X D order g.start = k1 X D) (sep_and (sep_forall fun _ => sep_each fun X D _ => lv order X D order g.stop = k2 X D)
      (sep_and (sep_shift order g.stop) (sep_and (sep_forall fun _ => sep_shift order g.start) (sep_forall fun ii => sep_forall fun _ => sep_each fun X D _ =>
        (∀ m < g.col.length, lv order X D ii (g.col.getD m 0) = br (mats.getD ii fun _ _ => 0) order g X D ii ((dynRows (constr.length + 1) s).getD m 0)) ∧
        lv order X D ii g.stop = br (mats.getD ii fun _ _ => 0) order g X D ii constr.length))))
  | node =>
    simp only [phSeg, phNode, map_bind']
    refine seg_bind fun n_nodes => seg_bind fun D' => seg_bind fun fs => seg_bind fun fe => seg_ok (P := fun n v _ => nodeSeg scheme D' n_nodes fs fe order n g v) ?_
    obtain ⟨nodes, hn⟩ : ∃ l, l = nodeRows scheme g := ⟨_, rfl⟩
    have x : ∀ a b, Sep fun n v _ => sameRow order n v.x a b := fun a b => sep_cols order fun x _ => x a = x b
    have xd : ∀ a b, Sep fun n v _ => sameRow order n v.xd a b := fun a b => sep_cols order fun _ x => x a = x b
    have e : ∀ f r, Sep fun n v _ => extreme order n nodes f r v := fun f r => sep_and (sep_cols order fun x _ => x r = f fun i => x (nodes.getD i 0))
      (sep_each fun X D _ => lv order X D order r = f fun i => lv order X D order (nodes.getD i 0))
    simp only [nodeSeg, ← hn]
    exact sep_and (sep_forall fun i => sep_forall fun _ => sep_cols order fun x xd => xd (nodes.getD i 0) = 2 / g.h * ∑ k ∈ range n_nodes, D' i k * x (nodes.getD k 0))
      (sep_and (sep_forall fun _ => sep_and (sep_shift order _) (sep_forall fun _ => sep_shift order _))
      (sep_and (sep_forall fun _ => sep_and (x _ _) (sep_forall fun _ => xd _ _))
      (sep_and (sep_forall fun _ => x _ _) (sep_and (sep_forall fun _ => xd _ _) (sep_and (sep_forall fun _ => xd _ _)
      (sep_and (sep_forall fun _ => sep_and (e fs _) (sep_forall fun _ => sep_shift order _)) (sep_forall fun _ => sep_and (e fe _) (sep_forall fun _ => sep_shift order _))))))))

/-- C198, problems with several segments, of every mode. -/
theorem C198_segments (A B : Dyn) (nA nB mA mB lA : ℕ) (mode : Mode) (scheme : String) (order : ℕ) (points : List ℕ) (ext : List ℝ) :
    phConstraints (both nA nB mA lA A B) mode scheme order (nA + nB) (mA + mB) points ext = (do
      let P ← phConstraints A mode scheme order nA mA points ext
      let Q ← phConstraints B mode scheme order nB mB points ext
      return fun v q => P (part (nA + nB) 0 nA 0 0 v) (fun k => qpart 0 (q k)) ∧ Q (part (nA + nB) nA nB mA lA v) (fun k => qpart nA (q k))) := by
  unfold phConstraints
  cases lift (collIndices scheme) with
  | error e => rfl
  | ok s =>
  choose E hE using fun g => seg_shape mode scheme s order g
  have hM : ∀ n, (segs points ext).mapM (phSeg mode scheme s order n) = ((segs points ext).mapM E).map (List.map fun K v q => each K n v q) := fun n => mapM_map (fun g => hE g n) _
  have okb : ∀ {α β : Type} (a : α) (f : α → Except BErr β), (Except.ok a >>= f) = f a := fun _ _ => rfl
  simp only [okb, hM]
  generalize (segs points ext).mapM E = EK
  generalize ((segs points ext).mapM fun g => uStart scheme order g.n) = Us
  generalize uEnd scheme order (points.getLastD 0) = Ue
  obtain ⟨gs, hgs⟩ : ∃ l, l = segs points ext := ⟨_, rfl⟩
  simp only [← hgs]
  cases EK with
  | error e => rfl
  | ok Ks =>
  cases Us with
  | error e => rfl
  | ok us =>
  cases Ue with
  | error e => rfl
  | ok ue =>
    refine congrArg Except.ok (funext fun (v : Vars) => funext fun (q : ℕ → ℕ → ℕ → ℝ) => propext ?_)
    have k : ∀ n w r k, ((Ks.map fun K v q => each K n v q).getD k fun _ _ => True) w r ↔ each (Ks.getD k fun _ _ _ => True) n w r := fun n w r k => by
      by_cases hk : k < Ks.length
      · simp [List.getD_eq_getElem?_getD, hk]
      · simp [List.getD_eq_getElem?_getD, hk, each]
    simp only [k]
    have h1 : ∀ k, _ ↔ _ := fun k => each_add (K := Ks.getD k fun _ _ _ => True) (nA := nA) (nB := nB) (mA := mA) (lA := lA) (v := v) (q := q k)
    have h3 : ∀ k, _ ↔ _ := fun k => lt_add (nA := mA) (nB := mB) (R := fun c => v.u ((gs.map Seg.start).getD k 0) c = (us.getD k fun _ => 0) fun m => v.u (((gs.map Seg.col).getD k []).getD m 0) c)
    have h4 : _ ↔ _ := lt_add (nA := mA) (nB := mB) (R := fun c => v.u (Ph.nArr points - 1) c = ue fun m => v.u (((gs.map Seg.col).getLastD []).getD m 0) c)
    have z : ∀ i ii, zero (both nA nB mA lA A B (v.x i) (v.xd i) (v.u i) (v.lam ii)) ↔ _ := fun i ii => zero_append _ _
    constructor
    · rintro ⟨a, b, c, d⟩
      exact ⟨⟨fun k hk => ((h1 k).1 (a k hk)).1, fun ii hi => ((z _ ii).1 (b ii hi)).1, fun k hk => ((h3 k).1 (c k hk)).1, (h4.1 d).1⟩,
        ⟨fun k hk => ((h1 k).1 (a k hk)).2, fun ii hi => ((z _ ii).1 (b ii hi)).2, fun k hk => ((h3 k).1 (c k hk)).2, (h4.1 d).2⟩⟩
    · rintro ⟨⟨a, b, c, d⟩, ⟨a', b', c', d'⟩⟩
      exact ⟨fun k hk => (h1 k).2 ⟨a k hk, a' k hk⟩, fun ii hi => (z _ ii).2 ⟨b ii hi, b' ii hi⟩, fun k hk => (h3 k).2 ⟨c k hk, c' k hk⟩, h4.2 ⟨d, d'⟩⟩

/-! ## Every pair of trajectories is one of the problem of both -/

/-- C198: any variables of the two problems are those of the problem of both, with the columns that each problem has. -/
theorem C198_all {nA nB : ℕ} (hA : 1 ≤ nA) (hB : 1 ≤ nB) (mA lA : ℕ) (vA vB : Vars) :
    ∃ v, (part (nA + nB) 0 nA 0 0 v).x = vA.x ∧ (part (nA + nB) 0 nA 0 0 v).xd = vA.xd ∧ (∀ i, ∀ c < mA, (part (nA + nB) 0 nA 0 0 v).u i c = vA.u i c) ∧
      (∀ i, ∀ c < lA, (part (nA + nB) 0 nA 0 0 v).lam i c = vA.lam i c) ∧ part (nA + nB) nA nB mA lA v = vB := by
  obtain ⟨glue, hg⟩ : ∃ glue : (ℕ → ℕ → ℝ) → (ℕ → ℕ → ℝ) → ℕ → ℕ → ℝ, glue = fun a b i c =>
    if c % (nA + nB) < nA then a i (nA * (c / (nA + nB)) + c % (nA + nB)) else b i (nB * (c / (nA + nB)) + (c % (nA + nB) - nA)) := ⟨_, rfl⟩
  obtain ⟨tail, ht⟩ : ∃ tail : ℕ → (ℕ → ℕ → ℝ) → (ℕ → ℕ → ℝ) → ℕ → ℕ → ℝ, tail = fun m a b i c => if c < m then a i c else b i (c - m) := ⟨_, rfl⟩
  have n0 : 0 < nA + nB := by omega
  have g1 : ∀ a b, (fun i => cols (nA + nB) 0 nA (glue a b i)) = a := fun a b => by
    funext i c
    have r : c % nA < nA := Nat.mod_lt _ hA
    have r' : c % nA < nA + nB := by omega
    simp [cols, hg, Nat.mul_add_div n0, Nat.mul_add_mod, Nat.div_eq_of_lt r', Nat.mod_eq_of_lt r', r, Nat.div_add_mod]
  have g2 : ∀ a b, (fun i => cols (nA + nB) nA nB (glue a b i)) = b := fun a b => by
    funext i c
    have r : c % nB < nB := Nat.mod_lt _ hB
    have r' : nA + c % nB < nA + nB := by omega
    simp [cols, hg, Nat.mul_add_div n0, Nat.mul_add_mod, Nat.div_eq_of_lt r', Nat.mod_eq_of_lt r', Nat.div_add_mod]
  refine ⟨⟨glue vA.x vB.x, glue vA.xd vB.xd, tail mA vA.u vB.u, tail lA vA.lam vB.lam⟩, g1 _ _, g1 _ _, fun i c hc => ?_, fun i c hc => ?_, ?_⟩
  · simp [part, from', ht, hc]
  · simp [part, from', ht, hc]
  · have t : ∀ m a b, (fun i => from' m (tail m a b i)) = b := fun m a b => by funext i c; simp [from', ht]
    simp only [part, g2, t]

/-! ## The cost -/

/-- C198: in pseudospectral problems the cost is the sum of both, also where it raises an error. -/
theorem C198_cost (scheme : String) (N n_arr order : ℕ) (t0 t1 : ℝ) (mA mB : ℕ) (u : ℕ → ℕ → ℝ) :
    PsCost.uSqCost scheme N n_arr order t0 t1 (mA + mB) u = (do
      let a ← PsCost.uSqCost scheme N n_arr order t0 t1 mA (fun i => from' 0 (u i))
      let b ← PsCost.uSqCost scheme N n_arr order t0 t1 mB (fun i => from' mA (u i))
      return a + b) ∧
    PsCost.buUSqCost scheme N t0 t1 (mA + mB) u = (do
      let a ← PsCost.buUSqCost scheme N t0 t1 mA (fun i => from' 0 (u i))
      let b ← PsCost.buUSqCost scheme N t0 t1 mB (fun i => from' mA (u i))
      return a + b) := by
  constructor
  · unfold PsCost.uSqCost PsCost.quadCost PsCost.quadIntCas
    cases hw : Gauss.getWeights N scheme order "u" with
    | error e => simp [hw, bind, Except.bind]
    | ok w => simp [hw, bind, Except.bind, pure, Except.pure, sum_range_add, mul_add, from']
  · unfold PsCost.buUSqCost PsCost.quadIntCas
    cases hw : Gauss.getWeights N scheme 2 "u" with
    | error e => simp [bind, Except.bind]
    | ok w => simp [bind, Except.bind, pure, Except.pure, sum_range_add, mul_add, from']

/-- C198: in equispaced problems the cost is the sum of both. -/
theorem C198_cost_equispaced {mA mB : ℕ} (scheme : String) (T : ℝ) (N : ℕ) (a : Costs.Controls (mA + mB)) :
    Costs.uSqCost scheme T N a =
      Costs.uSqCost scheme T N ⟨fun i j => a.u i (j.castAdd mB), fun i j => a.u_c i (j.castAdd mB), fun i j => a.u_j i (j.castAdd mB)⟩ +
      Costs.uSqCost scheme T N ⟨fun i j => a.u i (j.natAdd mA), fun i j => a.u_c i (j.natAdd mA), fun i j => a.u_j i (j.natAdd mA)⟩ := by
  unfold Costs.uSqCost Costs.sum2 Costs.sum1 Costs.sqArr
  split
  · split <;> split <;> (dsimp only; rw [Fin.sum_univ_add, mul_add])
  · dsimp only
    rw [Fin.sum_univ_add, mul_add]

/-- C198: in problems with several segments the cost is the sum of both. -/
theorem C198_cost_segments {mA mB : ℕ} (w : Ph.Weights) (scheme : String) (points : List ℕ) (hs : List ℝ) (u : ℕ → Fin (mA + mB) → ℝ) :
    Ph.uSqCost w scheme points hs u = (do
      let a ← Ph.uSqCost w scheme points hs (fun i (j : Fin mA) => u i (j.castAdd mB))
      let b ← Ph.uSqCost w scheme points hs (fun i (j : Fin mB) => u i (j.natAdd mA))
      return a + b) := by
  have len : ∀ (ps : List ℕ) s, ((Ph.segRows s ps).map (·.1)).flatten.length = ps.sum := by
    intro ps
    induction ps with
    | nil => intro s; simp [Ph.segRows]
    | cons p ps ih => intro s; simp only [Ph.segRows, List.map_cons, List.flatten_cons, List.length_append, ih, List.sum_cons, List.length_range']; omega
  have hr : ∀ i < points.sum, ((Ph.segRows 1 points).map (·.1)).flatten[i]? = some (((Ph.segRows 1 points).map (·.1)).flatten.getD i 0) := fun i hi => by
    rw [List.getD_eq_getElem?_getD, List.getElem?_eq_getElem (by rw [len]; exact hi)]
    rfl
  rw [Ph.C35_u_sq_cost w scheme points hs u _ hr, Ph.C35_u_sq_cost w scheme points hs (fun i (j : Fin mA) => u i (j.castAdd mB)) _ hr,
    Ph.C35_u_sq_cost w scheme points hs (fun i (j : Fin mB) => u i (j.natAdd mA)) _ hr]
  refine congrArg Except.ok ?_
  clear hr
  suffices ∀ (r : ℕ → ℕ) (ps : List ℕ) (ds : List ℝ) off, Ph.segmentSquares (fun p i => w p scheme 2 "u" i) (fun i => u (r i)) off ps ds =
      Ph.segmentSquares (fun p i => w p scheme 2 "u" i) (fun i (j : Fin mA) => u (r i) (j.castAdd mB)) off ps ds +
      Ph.segmentSquares (fun p i => w p scheme 2 "u" i) (fun i (j : Fin mB) => u (r i) (j.natAdd mA)) off ps ds from this _ _ _ _
  intro r ps
  induction ps with
  | nil => intro ds off; simp [Ph.segmentSquares]
  | cons p ps ih =>
    intro ds off
    cases ds with
    | nil => simp [Ph.segmentSquares]
    | cons d ds =>
      rw [Ph.segmentSquares, Ph.segmentSquares, Ph.segmentSquares, ih, Fin.sum_univ_add]
      ring

/-! ## The best trajectories -/

/-- `v` is a solution: it meets the constraints, at the lowest cost. -/
def Best (C : Vars → Prop) (cost : (ℕ → ℕ → ℝ) → ℝ) (v : Vars) : Prop := C v ∧ ∀ w, C w → cost v.u ≤ cost w.u

/-- The equations use `m` controls and `l` multipliers. -/
def Uses (m l : ℕ) (F : Dyn) : Prop := ∀ x xd u u' y y', (∀ c < m, u c = u' c) → (∀ c < l, y c = y' c) → F x xd u y = F x xd u' y'

private theorem best_iff {nA nB mA lA : ℕ} (hA : 1 ≤ nA) (hB : 1 ≤ nB) {A : Dyn} (hu : Uses mA lA A) {P Q C : Vars → Prop} {a b c : (ℕ → ℕ → ℝ) → ℝ}
    (hC : ∀ v, C v ↔ P (part (nA + nB) 0 nA 0 0 v) ∧ Q (part (nA + nB) nA nB mA lA v))
    (hP : ∀ v w : Vars, v.x = w.x → v.xd = w.xd → (∀ x xd i, A x xd (v.u i) (v.lam i) = A x xd (w.u i) (w.lam i)) → P v → P w)
    (hc : ∀ u, c u = a (fun i => from' 0 (u i)) + b (fun i => from' mA (u i))) (ha : ∀ u u' : ℕ → ℕ → ℝ, (∀ i, ∀ c < mA, u i c = u' i c) → a u = a u') (v : Vars) :
    Best C c v ↔ Best P a (part (nA + nB) 0 nA 0 0 v) ∧ Best Q b (part (nA + nB) nA nB mA lA v) := by
  constructor
  · rintro ⟨h, hb⟩
    have h' := (hC v).1 h
    refine ⟨⟨h'.1, fun w hw => ?_⟩, h'.2, fun w hw => ?_⟩
    · obtain ⟨z, z1, z2, z3, z4, z5⟩ := C198_all hA hB mA lA w (part (nA + nB) nA nB mA lA v)
      have := hb z ((hC z).2 ⟨hP _ _ z1.symm z2.symm (fun x xd i => (hu _ _ _ _ _ _ (z3 i) (z4 i)).symm) hw, z5 ▸ h'.2⟩)
      rw [hc, hc] at this
      have e1 : a (fun i => from' 0 (z.u i)) = a w.u := ha _ _ z3
      have e2 : (fun i => from' mA (z.u i)) = fun i => from' mA (v.u i) := congrArg Vars.u z5
      rw [e1, e2] at this
      exact le_of_add_le_add_right this
    · obtain ⟨z, z1, z2, z3, z4, z5⟩ := C198_all hA hB mA lA (part (nA + nB) 0 nA 0 0 v) w
      have := hb z ((hC z).2 ⟨hP _ _ z1.symm z2.symm (fun x xd i => (hu _ _ _ _ _ _ (z3 i) (z4 i)).symm) h'.1, z5.symm ▸ hw⟩)
      rw [hc, hc] at this
      have e1 : a (fun i => from' 0 (z.u i)) = a (fun i => from' 0 (v.u i)) := ha _ _ z3
      have e2 : (fun i => from' mA (z.u i)) = w.u := congrArg Vars.u z5
      rw [e1, e2] at this
      exact le_of_add_le_add_left this
  · rintro ⟨⟨h1, b1⟩, h2, b2⟩
    refine ⟨(hC v).2 ⟨h1, h2⟩, fun w hw => ?_⟩
    have h' := (hC w).1 hw
    rw [hc, hc]
    exact add_le_add (b1 _ h'.1) (b2 _ h'.2)

/-- C198: the solutions of a bottom-up problem of both systems are the pairs of solutions of each one. -/
theorem C198_best_bu {nA nB mA mB lA : ℕ} (hA : 1 ≤ nA) (hB : 1 ≤ nB) {A B : Dyn} (hu : Uses mA lA A) {scheme : String} {N order : ℕ} {t0 t1 : ℝ} {P Q C : Vars → Prop}
    (hP : buConstraints A scheme N order nA t0 t1 = .ok P) (hQ : buConstraints B scheme N order nB t0 t1 = .ok Q)
    (hC : buConstraints (both nA nB mA lA A B) scheme N order (nA + nB) t0 t1 = .ok C) {a b c : (ℕ → ℕ → ℝ) → ℝ}
    (ha : ∀ u, PsCost.buUSqCost scheme N t0 t1 mA u = .ok (a u)) (hb : ∀ u, PsCost.buUSqCost scheme N t0 t1 mB u = .ok (b u))
    (hc : ∀ u, PsCost.buUSqCost scheme N t0 t1 (mA + mB) u = .ok (c u)) (v : Vars) :
    Best C c v ↔ Best P a (part (nA + nB) 0 nA 0 0 v) ∧ Best Q b (part (nA + nB) nA nB mA lA v) := by
  rw [C198_bu, hP, hQ] at hC
  obtain rfl := Except.ok.inj hC
  refine best_iff hA hB hu (fun v => Iff.rfl) (fun v w hx hd h H => ?_) (fun u => ?_) (fun u u' h => ?_) v
  · exact (bu_shape scheme N order t0 t1).local' (F := A) (n := nA) (C := fun v _ => P v) (by simp [hP, Except.map]) (q := 0) (r := 0) hx hd h (fun _ _ _ => rfl) H
  · have := (C198_cost scheme N 0 2 t0 t1 mA mB u).2
    rw [ha, hb, hc] at this
    exact Except.ok.inj this
  · have e : PsCost.buUSqCost scheme N t0 t1 mA u = PsCost.buUSqCost scheme N t0 t1 mA u' := by
      unfold PsCost.buUSqCost PsCost.quadIntCas
      cases Gauss.getWeights N scheme 2 "u" with
      | error e => rfl
      | ok w => exact congrArg Except.ok (congrArg _ (sum_congr rfl fun c hc => sum_congr rfl fun i _ => by beta_reduce; rw [h i c (mem_range.1 hc)]))
    rw [ha, ha] at e
    exact Except.ok.inj e

/-- C198: the solutions of a top-down problem of both systems are the pairs of solutions of each one. -/
theorem C198_best_td {nA nB mA mB lA : ℕ} (hA : 1 ≤ nA) (hB : 1 ≤ nB) {A B : Dyn} (hu : Uses mA lA A) {scheme : String} {N order : ℕ} {t0 t1 : ℝ} {P Q C : Vars → (ℕ → ℕ → ℝ) → Prop}
    (hP : tdConstraints A scheme N order nA t0 t1 = .ok P) (hQ : tdConstraints B scheme N order nB t0 t1 = .ok Q)
    (hC : tdConstraints (both nA nB mA lA A B) scheme N order (nA + nB) t0 t1 = .ok C) {a b c : (ℕ → ℕ → ℝ) → ℝ}
    (ha : ∀ u, PsCost.buUSqCost scheme N t0 t1 mA u = .ok (a u)) (hb : ∀ u, PsCost.buUSqCost scheme N t0 t1 mB u = .ok (b u))
    (hc : ∀ u, PsCost.buUSqCost scheme N t0 t1 (mA + mB) u = .ok (c u)) (v : Vars) :
    Best (fun v => ∃ q, C v q) c v ↔ Best (fun v => ∃ q, P v q) a (part (nA + nB) 0 nA 0 0 v) ∧ Best (fun v => ∃ q, Q v q) b (part (nA + nB) nA nB mA lA v) := by
  rw [C198_td, hP, hQ] at hC
  obtain rfl := Except.ok.inj hC
  refine best_iff hA hB hu (fun v => ?_) (fun v w hx hd h H => ?_) (fun u => ?_) (fun u u' h => ?_) v
  · constructor
    · rintro ⟨q, h1, h2⟩
      exact ⟨⟨_, h1⟩, _, h2⟩
    · rintro ⟨⟨q, h1⟩, r, h2⟩
      refine ⟨fun c j => if j < nA then q c j else r c (j - nA), ?_, ?_⟩
      · exact (td_shape scheme N order t0 t1).local' (F := A) (n := nA) hP rfl rfl (fun _ _ _ => rfl) (fun c j hj => by simp [qpart, from', hj]) h1
      · exact (td_shape scheme N order t0 t1).local' (F := B) (n := nB) hQ rfl rfl (fun _ _ _ => rfl) (fun c j hj => by simp [qpart, from']) h2
  · obtain ⟨q, hq⟩ := H
    exact ⟨q, (td_shape scheme N order t0 t1).local' (F := A) (n := nA) hP hx hd h (fun _ _ _ => rfl) hq⟩
  · have := (C198_cost scheme N 0 2 t0 t1 mA mB u).2
    rw [ha, hb, hc] at this
    exact Except.ok.inj this
  · have e : PsCost.buUSqCost scheme N t0 t1 mA u = PsCost.buUSqCost scheme N t0 t1 mA u' := by
      unfold PsCost.buUSqCost PsCost.quadIntCas
      cases Gauss.getWeights N scheme 2 "u" with
      | error e => rfl
      | ok w => exact congrArg Except.ok (congrArg _ (sum_congr rfl fun c hc => sum_congr rfl fun i _ => by beta_reduce; rw [h i c (mem_range.1 hc)]))
    rw [ha, ha] at e
    exact Except.ok.inj e

/-- C198: the solutions of a node based problem of both systems are the pairs of solutions of each one. -/
theorem C198_best_node {nA nB mA mB lA : ℕ} (hA : 1 ≤ nA) (hB : 1 ≤ nB) {A B : Dyn} (hu : Uses mA lA A) {scheme : String} {N n_arr order : ℕ} {t0 t1 : ℝ} {P Q C : Vars → Prop}
    (hP : nodeConstraints A scheme N order nA t0 t1 = .ok P) (hQ : nodeConstraints B scheme N order nB t0 t1 = .ok Q)
    (hC : nodeConstraints (both nA nB mA lA A B) scheme N order (nA + nB) t0 t1 = .ok C) {a b c : (ℕ → ℕ → ℝ) → ℝ}
    (ha : ∀ u, PsCost.uSqCost scheme N n_arr order t0 t1 mA u = .ok (a u)) (hb : ∀ u, PsCost.uSqCost scheme N n_arr order t0 t1 mB u = .ok (b u))
    (hc : ∀ u, PsCost.uSqCost scheme N n_arr order t0 t1 (mA + mB) u = .ok (c u)) (v : Vars) :
    Best C c v ↔ Best P a (part (nA + nB) 0 nA 0 0 v) ∧ Best Q b (part (nA + nB) nA nB mA lA v) := by
  rw [C198_node, hP, hQ] at hC
  obtain rfl := Except.ok.inj hC
  refine best_iff hA hB hu (fun v => Iff.rfl) (fun v w hx hd h H => ?_) (fun u => ?_) (fun u u' h => ?_) v
  · exact (node_shape scheme N order t0 t1).local' (F := A) (n := nA) (C := fun v _ => P v) (by simp [hP, Except.map]) (q := 0) (r := 0) hx hd h (fun _ _ _ => rfl) H
  · have := (C198_cost scheme N n_arr order t0 t1 mA mB u).1
    rw [ha, hb, hc] at this
    exact Except.ok.inj this
  · have e : PsCost.uSqCost scheme N n_arr order t0 t1 mA u = PsCost.uSqCost scheme N n_arr order t0 t1 mA u' := by
      unfold PsCost.uSqCost PsCost.quadCost PsCost.quadIntCas
      have k : ∀ w : ℕ → ℝ, ∑ c ∈ range mA, ∑ i ∈ range N, w i * u i c ^ 2 = ∑ c ∈ range mA, ∑ i ∈ range N, w i * u' i c ^ 2 := fun w =>
        sum_congr rfl fun c hc => sum_congr rfl fun i _ => by rw [h i c (mem_range.1 hc)]
      cases hw : Gauss.getWeights N scheme order "u" with
      | error e => simp [hw, bind, Except.bind]
      | ok w => simp [hw, bind, Except.bind, pure, Except.pure, k]
    rw [ha, ha] at e
    exact Except.ok.inj e

/-! ## Examples -/

/-- A cart that a force pushes. -/
def cart : Dyn := fun _ xd u _ => [xd 1 - u 0]

/-- A mass on a spring that a force pushes. -/
def spring : Dyn := fun x xd u _ => [xd 1 + x 0 - u 0]

/-- Both, side by side: positions in columns 0 and 1, velocities in 2 and 3. -/
example (x xd u l : ℕ → ℝ) : both 1 1 1 0 cart spring x xd u l = [xd 2 - u 0, xd 3 + x 1 - u 1] := by
  simp [both, cart, spring, cols, from']

/-- The problems exist, and the trajectories of both together are the pairs of trajectories. -/
example : ∃ P Q, buConstraints cart "LG" 3 2 1 0 1 = .ok P ∧ buConstraints spring "LG" 3 2 1 0 1 = .ok Q ∧
    buConstraints (both 1 1 1 0 cart spring) "LG" 3 2 2 0 1 = .ok fun v => P (part 2 0 1 0 0 v) ∧ Q (part 2 1 1 1 0 v) := by
  obtain ⟨_, _, P, -, -, hP, -⟩ := Props.C30_feasible (scheme := "LG") (order := 2) (N := 3) (by decide) (by norm_num) (by decide) (Or.inl (by norm_num)) cart 1 (t0 := 0) (t1 := 1) (by norm_num)
  obtain ⟨_, _, Q, -, -, hQ, -⟩ := Props.C30_feasible (scheme := "LG") (order := 2) (N := 3) (by decide) (by norm_num) (by decide) (Or.inl (by norm_num)) spring 1 (t0 := 0) (t1 := 1) (by norm_num)
  refine ⟨P, Q, hP, hQ, ?_⟩
  have := C198_bu cart spring 1 1 1 0 "LG" 3 2 0 1
  rw [hP, hQ] at this
  exact this

/-- The equations of the cart use one control. -/
theorem cart_uses : Uses 1 0 cart := fun x xd u u' y y' h _ => by simp [cart, h 0 (by norm_num)]

/-- The solutions for both are the pairs of solutions. -/
example : ∃ P Q C a b c, buConstraints cart "LG" 3 2 1 0 1 = .ok P ∧ buConstraints spring "LG" 3 2 1 0 1 = .ok Q ∧ buConstraints (both 1 1 1 0 cart spring) "LG" 3 2 2 0 1 = .ok C ∧
    (∀ u, PsCost.buUSqCost "LG" 3 0 1 1 u = .ok (a u)) ∧ (∀ u, PsCost.buUSqCost "LG" 3 0 1 1 u = .ok (b u)) ∧ (∀ u, PsCost.buUSqCost "LG" 3 0 1 2 u = .ok (c u)) ∧
    ∀ v, Best C c v ↔ Best P a (part 2 0 1 0 0 v) ∧ Best Q b (part 2 1 1 1 0 v) := by
  obtain ⟨_, _, P, -, -, hP, -⟩ := Props.C30_feasible (scheme := "LG") (order := 2) (N := 3) (by decide) (by norm_num) (by decide) (Or.inl (by norm_num)) cart 1 (t0 := 0) (t1 := 1) (by norm_num)
  obtain ⟨_, _, Q, -, -, hQ, -⟩ := Props.C30_feasible (scheme := "LG") (order := 2) (N := 3) (by decide) (by norm_num) (by decide) (Or.inl (by norm_num)) spring 1 (t0 := 0) (t1 := 1) (by norm_num)
  have hC : buConstraints (both 1 1 1 0 cart spring) "LG" 3 2 2 0 1 = .ok fun v => P (part 2 0 1 0 0 v) ∧ Q (part 2 1 1 1 0 v) := by
    have := C198_bu cart spring 1 1 1 0 "LG" 3 2 0 1
    rw [hP, hQ] at this
    exact this
  have cost : ∀ m, ∃ a : (ℕ → ℕ → ℝ) → ℝ, ∀ u, PsCost.buUSqCost "LG" 3 0 1 m u = .ok (a u) := fun m => by
    have hw : Gauss.getWeights 3 "LG" 2 "u" = .ok (arr (leggaussWeights 3)) := by simp [Gauss.getWeights]
    refine ⟨fun u => (1 - 0) * ∑ c ∈ range m, ∑ i ∈ range 3, arr (leggaussWeights 3) i * u i c ^ 2, fun u => ?_⟩
    simp [PsCost.buUSqCost, PsCost.quadIntCas, hw, bind, Except.bind, pure, Except.pure]
  obtain ⟨a, ha⟩ := cost 1
  obtain ⟨c, hc⟩ := cost 2
  exact ⟨P, Q, _, a, a, c, hP, hQ, hC, ha, ha, hc, C198_best_bu (nA := 1) (nB := 1) (mA := 1) (mB := 1) (lA := 0) le_rfl le_rfl cart_uses hP hQ hC ha ha hc⟩

/-- Node based and top-down problems of both systems exist too. -/
example : (∃ P Q C, nodeConstraints cart "LGL" 4 2 1 0 1 = .ok P ∧ nodeConstraints spring "LGL" 4 2 1 0 1 = .ok Q ∧ nodeConstraints (both 1 1 1 0 cart spring) "LGL" 4 2 2 0 1 = .ok C) ∧
    ∃ P Q C, tdConstraints cart "LG" 3 2 1 0 1 = .ok P ∧ tdConstraints spring "LG" 3 2 1 0 1 = .ok Q ∧ tdConstraints (both 1 1 1 0 cart spring) "LG" 3 2 2 0 1 = .ok C := by
  have n := fun F k => Props.C73_feasible (scheme := "LGL") (order := 2) (N := 4) (by decide) (by decide) (by norm_num) (Or.inl le_rfl) (by decide) F k (t0 := 0) (t1 := 1) (by norm_num)
  have t := fun F k => Props.C31_feasible (scheme := "LG") (order := 2) (N := 3) (by decide) (by norm_num) (by decide) F k (t0 := 0) (t1 := 1) (by norm_num)
  obtain ⟨_, _, _, _, P, -, -, -, -, hP, -⟩ := n cart 1
  obtain ⟨_, _, _, _, Q, -, -, -, -, hQ, -⟩ := n spring 1
  obtain ⟨_, _, _, _, C, -, -, -, -, hC, -⟩ := n (both 1 1 1 0 cart spring) 2
  obtain ⟨_, _, _, P', -, -, -, hP', -⟩ := t cart 1
  obtain ⟨_, _, _, Q', -, -, -, hQ', -⟩ := t spring 1
  obtain ⟨_, _, _, C', -, -, -, hC', -⟩ := t (both 1 1 1 0 cart spring) 2
  exact ⟨⟨P, Q, C, hP, hQ, hC⟩, P', Q', C', hP', hQ', hC'⟩

end Chords.Together
