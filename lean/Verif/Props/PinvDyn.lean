import Verif.Model.PinvDyn
import Verif.Props.Names
import Verif.Props.Lag

/-! # Numeric inverse dynamics: C144 -/

namespace Chords.Props
open Names PinvDyn Lag
open scoped Matrix

/-- What SymPy finds in some expressions: their dynamic symbols and derivatives, and also the dynamic symbols whose derivatives occur. -/
structure DynsOf (found : List Quantity) (exprs : List Expr) : Prop where
  all : ∀ e ∈ exprs, ∀ n k, .dyn n k ∈ e.atoms → .dyn n k ∈ found
  only : ∀ a ∈ found, ∃ n k, a = .dyn n k ∧ ∃ e ∈ exprs, ∃ j, .dyn n j ∈ e.atoms

theorem mem_symbolsOf {e : Expr} {n : Name} : n ∈ symbolsOf e ↔ .sym n ∈ e.atoms := by
  simp only [symbolsOf, List.mem_filterMap]
  constructor
  · rintro ⟨a, ha, h⟩
    cases a with
    | sym m =>
      cases h
      exact ha
    | dyn m k => cases h
  · intro h
    exact ⟨_, h, rfl⟩

/-- The symbols of an expression with its dynamic symbols replaced. -/
theorem symbols_dummy {found : List Quantity} {exprs : List Expr} (hf : DynsOf found exprs) {e : Expr} (he : e ∈ exprs) (n : Name) :
    n ∈ symbolsOf (e.subsList ((sortedDyn found).map fun d => (d, dummy))) ↔
      .sym n ∈ e.atoms ∨ n = dummy ∧ ∃ m k, .dyn m k ∈ e.atoms := by
  obtain ⟨g, hg⟩ : ∃ g : Quantity → Quantity, g = fun a => match a with
    | .sym m => .sym m
    | .dyn _ _ => .sym dummy := ⟨_, rfl⟩
  have hmem : ∀ q, q ∈ sortedDyn found ↔ q ∈ found := fun q => List.mem_insertionSort _
  have hl : ∀ p ∈ (sortedDyn found).map fun d => (d, dummy), ∃ n k, p.1 = Quantity.dyn n k := by
    intro p hp
    obtain ⟨d, hd, rfl⟩ := List.mem_map.1 hp
    obtain ⟨n, k, h, -⟩ := hf.only d ((hmem d).1 hd)
    exact ⟨n, k, h⟩
  have hs : ((sortedDyn found).map fun d => (d, dummy)).Pairwise fun a b => level b.1 ≤ level a.1 := by
    rw [List.pairwise_map]
    have : Std.Total (fun a b : Quantity => level b ≤ level a) := ⟨fun a b => Nat.le_total _ _⟩
    have : IsTrans Quantity (fun a b : Quantity => level b ≤ level a) := ⟨fun a b c h h' => Nat.le_trans h' h⟩
    exact List.pairwise_insertionSort _ found
  have hmap : e.subsList ((sortedDyn found).map fun d => (d, dummy)) = mapAtoms g e := by
    refine map_subsList e fun q hq => ?_
    cases q with
    | sym m => rw [subs_sym _ hl, hg]
    | dyn m k =>
      rw [subs_dyn hl hs (fun p hp p' hp' _ => ?_) (s := dummy), hg]
      · exact List.mem_map.2 ⟨_, (hmem _).2 (hf.all e he m k hq), rfl⟩
      · obtain ⟨d, -, rfl⟩ := List.mem_map.1 hp
        obtain ⟨d', -, rfl⟩ := List.mem_map.1 hp'
        rfl
  rw [hmap, mem_symbolsOf, atoms_mapAtoms, List.mem_map]
  constructor
  · rintro ⟨a, ha, h⟩
    rw [hg] at h
    cases a with
    | sym m =>
      cases h
      exact .inl ha
    | dyn m k =>
      cases h
      exact .inr ⟨rfl, m, k, ha⟩
  · rintro (h | ⟨rfl, m, k, h⟩)
    · exact ⟨_, h, by rw [hg]⟩
    · exact ⟨_, h, by rw [hg]⟩

theorem removeForces_nodup {p : List Name} (h : p.Nodup) (forces : List Quantity) : (removeForces p forces).Nodup := by
  induction forces generalizing p with
  | nil => exact h
  | cons s l ih =>
    rw [removeForces, List.foldl_cons]
    cases s with
    | sym n => exact ih (h.erase n)
    | dyn n k => exact ih h

theorem mem_removeForces {p : List Name} (h : p.Nodup) (forces : List Quantity) (n : Name) :
    n ∈ removeForces p forces ↔ n ∈ p ∧ .sym n ∉ forces := by
  induction forces generalizing p with
  | nil => simp [removeForces]
  | cons s l ih =>
    rw [removeForces, List.foldl_cons]
    cases s with
    | sym m =>
      refine (ih (h.erase m)).trans ?_
      rw [h.mem_erase_iff]
      simp only [List.mem_cons, Quantity.sym.injEq]
      constructor
      · rintro ⟨⟨h1, h2⟩, h3⟩
        exact ⟨h2, by rintro (h4 | h4); exacts [h1 h4, h3 h4]⟩
      · rintro ⟨h1, h2⟩
        exact ⟨⟨fun h => h2 (.inl h), h1⟩, fun h => h2 (.inr h)⟩
    | dyn m k =>
      refine (ih h).trans ?_
      simp

/-- C144: when the function exists, and which are its parameters. The parameters are the symbols of the full equations other than forces, in the order of their
names. -/
theorem C144_returns {q : List Name} {forces found : List Quantity} {pinv exhaustive : List Expr} (hf : DynsOf found exhaustive) :
    (∃ f, simpNumPinv true false q forces found pinv exhaustive = .ok f) ↔
      ((∃ e ∈ exhaustive, .sym dummy ∈ e.atoms ∨ ∃ m k, .dyn m k ∈ e.atoms) ∧
        ∀ e ∈ exhaustive, ∀ m k, .dyn m k ∈ e.atoms → m ∈ q ∨ .dyn m 0 ∈ forces) := by
  have hd : dummy ∈ (exhaustive.flatMap fun e => symbolsOf (e.subsList ((sortedDyn found).map fun d => (d, dummy)))).dedup ↔
      ∃ e ∈ exhaustive, .sym dummy ∈ e.atoms ∨ ∃ m k, .dyn m k ∈ e.atoms := by
    rw [List.mem_dedup, List.mem_flatMap]
    constructor
    · rintro ⟨e, he, h⟩
      exact ⟨e, he, ((symbols_dummy hf he dummy).1 h).imp id fun h => h.2⟩
    · rintro ⟨e, he, h⟩
      exact ⟨e, he, (symbols_dummy hf he dummy).2 (h.imp id fun h => ⟨rfl, h⟩)⟩
  have ha : (∃ d ∈ sortedDyn found, baseOf d ∉ q.map (fun n => Quantity.dyn n 0) ∧ baseOf d ∉ forces) ↔
      ¬∀ e ∈ exhaustive, ∀ m k, .dyn m k ∈ e.atoms → m ∈ q ∨ .dyn m 0 ∈ forces := by
    constructor
    · rintro ⟨d, hd, h1, h2⟩ h
      obtain ⟨m, k, rfl, e, he, j, hm⟩ := hf.only d ((List.mem_insertionSort _).1 hd)
      rcases h e he m j hm with h | h
      · exact h1 (List.mem_map.2 ⟨m, h, rfl⟩)
      · exact h2 h
    · intro h
      push Not at h
      obtain ⟨e, he, m, k, hm, h1, h2⟩ := h
      refine ⟨.dyn m k, (List.mem_insertionSort _).2 (hf.all e he m k hm), fun h => ?_, h2⟩
      obtain ⟨m', h', h''⟩ := List.mem_map.1 h
      cases h''
      exact h1 h'
  simp only [simpNumPinv, Bool.true_eq_false, if_false, Bool.false_eq_true]
  rw [← hd]
  by_cases h1 : dummy ∈ (exhaustive.flatMap fun e => symbolsOf (e.subsList ((sortedDyn found).map fun d => (d, dummy)))).dedup
  · rw [if_neg (not_not.2 h1)]
    by_cases h2 : ∃ d ∈ sortedDyn found, baseOf d ∉ q.map (fun n => Quantity.dyn n 0) ∧ baseOf d ∉ forces
    · rw [if_pos h2]
      simp only [reduceCtorEq, exists_false, false_iff]
      exact fun h => ha.1 h2 h.2
    · rw [if_neg h2]
      simp only [Except.ok.injEq, exists_eq', true_iff]
      exact ⟨h1, not_not.1 fun h => h2 (ha.2 h)⟩
  · rw [if_pos h1]
    simp [h1]

/-- C144: the parameters are the symbols of the full equations other than forces and `dummy`, each one once, in the order of their names. -/
theorem C144_params {q : List Name} {forces found : List Quantity} {pinv exhaustive : List Expr} (hf : DynsOf found exhaustive) {f : PinvFun}
    (h : simpNumPinv true false q forces found pinv exhaustive = .ok f) :
    f.q = q ∧ f.exprs = pinv ∧ f.params.Nodup ∧ f.params.Pairwise (· ≤ ·) ∧
      ∀ n, n ∈ f.params ↔ n ≠ dummy ∧ .sym n ∉ forces ∧ ∃ e ∈ exhaustive, .sym n ∈ e.atoms := by
  simp only [simpNumPinv, Bool.true_eq_false, if_false, Bool.false_eq_true] at h
  split_ifs at h
  cases h
  have hnd := List.nodup_dedup (exhaustive.flatMap fun e => symbolsOf (e.subsList ((sortedDyn found).map fun d => (d, dummy))))
  have hperm := List.perm_insertionSort (· ≤ ·) (removeForces ((exhaustive.flatMap fun e => symbolsOf (e.subsList ((sortedDyn found).map fun d => (d, dummy)))).dedup.erase dummy) forces)
  refine ⟨rfl, rfl, hperm.nodup_iff.2 (removeForces_nodup (hnd.erase _) _), List.pairwise_insertionSort _ _, fun n => ?_⟩
  refine hperm.mem_iff.trans ?_
  rw [mem_removeForces (hnd.erase _), hnd.mem_erase_iff, List.mem_dedup, List.mem_flatMap, and_assoc]
  refine and_congr_right fun hn => ?_
  rw [and_comm]
  refine and_congr_right fun _ => ⟨?_, ?_⟩
  · rintro ⟨e, he, h⟩
    rcases (symbols_dummy hf he n).1 h with h | ⟨h, -⟩
    · exact ⟨e, he, h⟩
    · exact absurd h hn
  · rintro ⟨e, he, h⟩
    exact ⟨e, he, (symbols_dummy hf he n).2 (.inl h)⟩

theorem getD_map_idxOf {l : List Name} {n : Name} (h : n ∈ l) (F : Name → ℝ) : (l.map F).getD (l.idxOf n) 0 = F n := by
  have := List.idxOf_lt_length_iff.2 h
  rw [List.getD_eq_getElem?_getD, List.getElem?_map, List.getElem?_eq_getElem this, List.getElem_idxOf this]
  rfl

/-- C144: the function gives the values of the symbolic inverse dynamics, whatever the values of the quantities, if these only depend on the arguments; otherwise
calls raise. -/
theorem C144_values (f : PinvFun) (σ : Quantity → ℝ) :
    f.call (f.q.map fun n => σ (.dyn n 0)) (f.q.map fun n => σ (.dyn n 1)) (f.q.map fun n => σ (.dyn n 2)) (f.params.map fun n => σ (.sym n)) =
      open Classical in
      if ∀ e ∈ f.exprs, ∀ a ∈ e.atoms, (∃ n ∈ f.params, a = .sym n) ∨ ∃ n ∈ f.q, ∃ k ≤ 2, a = .dyn n k then .ok (f.exprs.map (Expr.eval σ)) else .error .name := by
  have hk : ∀ a, f.known a ↔ (∃ n ∈ f.params, a = .sym n) ∨ ∃ n ∈ f.q, ∃ k ≤ 2, a = .dyn n k := by
    intro a
    cases a with
    | sym n => simp [PinvFun.known]
    | dyn n k => simp [PinvFun.known]
  rw [PinvFun.call, if_neg (by simp)]
  by_cases h : ∀ e ∈ f.exprs, ∀ a ∈ e.atoms, (∃ n ∈ f.params, a = .sym n) ∨ ∃ n ∈ f.q, ∃ k ≤ 2, a = .dyn n k
  · rw [if_pos h, if_neg fun ⟨e, he, a, ha, hn⟩ => hn ((hk a).2 (h e he a ha))]
    congr 1
    refine List.map_congr_left fun e he => eval_congr e fun a ha => ?_
    rcases h e he a ha with ⟨n, hn, rfl⟩ | ⟨n, hn, k, hk, rfl⟩
    · exact getD_map_idxOf hn fun n => σ (.sym n)
    · interval_cases k
      · exact getD_map_idxOf hn fun n => σ (.dyn n 0)
      · exact getD_map_idxOf hn fun n => σ (.dyn n 1)
      · exact getD_map_idxOf hn fun n => σ (.dyn n 2)
  · rw [if_neg h, if_pos]
    push Not at h
    obtain ⟨e, he, a, ha, h1, h2⟩ := h
    refine ⟨e, he, a, ha, fun hc => ?_⟩
    rcases (hk a).1 hc with ⟨n, hn, h⟩ | ⟨n, hn, k, hk, h⟩
    · exact h1 n hn h
    · exact h2 n hn k hk h

/-- C144: calls with lists of other lengths raise. -/
theorem C144_lengths (f : PinvFun) (q qd qdd p : List ℝ)
    (h : ¬(q.length = f.q.length ∧ qd.length = f.q.length ∧ qdd.length = f.q.length ∧ p.length = f.params.length)) : f.call q qd qdd p = .error .value := by
  rw [PinvFun.call, if_pos]
  by_contra hc
  push Not at hc
  exact h hc

/-- C144: in a fully actuated system whose forces are affine in the actuations, the values of the function are actuations that produce the accelerations. -/
theorem C144_exact {q : List Name} {forces found : List Quantity} {pinv exhaustive : List Expr} (hf : DynsOf found exhaustive) {f : PinvFun}
    (h : simpNumPinv true false q forces found pinv exhaustive = .ok f)
    (hat : ∀ e ∈ pinv, ∀ a ∈ e.atoms, (∃ n, a = .sym n ∧ n ≠ dummy ∧ .sym n ∉ forces ∧ ∃ e ∈ exhaustive, .sym n ∈ e.atoms) ∨ ∃ n ∈ q, ∃ k ≤ 2, a = .dyn n k)
    {n r : ℕ} {M : (Quantity → ℝ) → Matrix (Fin n) (Fin n) ℝ} {qdd : (Quantity → ℝ) → Fin n → ℝ} {forcing : (Quantity → ℝ) → (Fin r → ℝ) → Fin n → ℝ}
    {E : (Quantity → ℝ) → Matrix (Fin n) (Fin r) ℝ} {P : Matrix (Fin n) (Fin r) ℝ → Matrix (Fin r) (Fin n) ℝ} (u : (Quantity → ℝ) → Fin r → ℝ)
    (hpinv : ∀ σ, pinv.map (Expr.eval σ) = List.ofFn (simpPinvDyn (M σ) (qdd σ) (forcing σ) (fun _ => E σ) P (u σ)))
    (σ : Quantity → ℝ) (hE : Affine (forcing σ) (E σ)) (hP : IsPinv (E σ) (P (E σ))) (hfull : ∀ g, ∃ w, E σ *ᵥ w = g) :
    ∃ w, f.call (q.map fun n => σ (.dyn n 0)) (q.map fun n => σ (.dyn n 1)) (q.map fun n => σ (.dyn n 2)) (f.params.map fun n => σ (.sym n)) = .ok (List.ofFn w) ∧
      M σ *ᵥ qdd σ = forcing σ w := by
  obtain ⟨h1, h2, -, -, h5⟩ := C144_params hf h
  refine ⟨_, ?_, C93_exact (M σ) (qdd σ) hE hP hfull (u σ)⟩
  have := C144_values f σ
  rw [h1, h2, if_pos] at this
  · rw [this, hpinv]
  · intro e he a ha
    rcases hat e he a ha with ⟨n, rfl, hn, hfo, hex⟩ | h
    · exact .inl ⟨n, (h5 n).2 ⟨hn, hfo, hex⟩, rfl⟩
    · exact .inr h

/-- C144 is false of systems with constraints and of implicit systems: no function is ever returned. -/
theorem C144_constrained_refuted (q : List Name) (forces found : List Quantity) (pinv exhaustive : List Expr) :
    simpNumPinv true true q forces found pinv exhaustive = .error .shape := rfl

/-- C144 is false of implicit systems. -/
theorem C144_implicit_refuted (eom : Bool) (symbolic : Except PErr (List Expr)) : ∀ f, implNumPinv eom symbolic ≠ .ok f := by
  intro f h
  unfold implNumPinv at h
  split_ifs at h
  cases symbolic <;> cases h

/-- C144 is false when a dynamic symbol is neither a coordinate nor a force, such as a given motion of the support: no function is returned. -/
theorem C144_dynamic_refuted {q : List Name} {forces found : List Quantity} {pinv exhaustive : List Expr} (hf : DynsOf found exhaustive) {e : Expr}
    (he : e ∈ exhaustive) {m : Name} {k : ℕ} (hm : .dyn m k ∈ e.atoms) (h1 : m ∉ q) (h2 : .dyn m 0 ∉ forces) :
    simpNumPinv true false q forces found pinv exhaustive = .error .attribute := by
  have hr := mt (C144_returns (q := q) (forces := forces) (pinv := pinv) hf).1 fun h => (h.2 e he m k hm).elim h1 h2
  have hd : dummy ∈ (exhaustive.flatMap fun e => symbolsOf (e.subsList ((sortedDyn found).map fun d => (d, dummy)))).dedup := by
    rw [List.mem_dedup, List.mem_flatMap]
    exact ⟨e, he, (symbols_dummy hf he dummy).2 (.inr ⟨rfl, m, k, hm⟩)⟩
  simp only [simpNumPinv, Bool.true_eq_false, if_false, Bool.false_eq_true, not_exists] at hr ⊢
  rw [if_neg (not_not.2 hd)] at hr ⊢
  split_ifs at hr ⊢
  · rfl
  · exact absurd rfl (hr _)

/-- C144 is false of systems with a parameter named `dummy`: the function raises in every call. -/
theorem C144_dummy_refuted {q : List Name} {forces found : List Quantity} {pinv exhaustive : List Expr} (hf : DynsOf found exhaustive) {f : PinvFun}
    (h : simpNumPinv true false q forces found pinv exhaustive = .ok f) {e : Expr} (he : e ∈ pinv) (hd : .sym "dummy".toList ∈ e.atoms) (a b c p : List ℝ) :
    ∃ er, f.call a b c p = .error er := by
  obtain ⟨-, h2, -, -, h5⟩ := C144_params hf h
  rw [PinvFun.call]
  split_ifs with h6 h7
  · exact ⟨_, rfl⟩
  · exact ⟨_, rfl⟩
  · exact absurd ⟨e, h2 ▸ he, _, hd, fun h => ((h5 _).1 h).1 rfl⟩ h7

/-- A coordinate `q`, a mass `m` and a force `u`. -/
def oneQ : List Name := ["q".toList]

/-- `q'` and `m * (u / m)`, which SymPy writes as `u`. -/
def cancelled : List Expr := [.atom (.dyn "q".toList 1), .atom (.sym "u".toList)]

/-- `m * q'' * m`, the actuation that moves the mass `m` when the force is `u / m`. -/
def cancelledPinv : List Expr := [.mul (.atom (.sym "m".toList)) (.mul (.atom (.sym "m".toList)) (.atom (.dyn "q".toList 2)))]

/-- C144 is false when a parameter disappears from the product of the mass matrix and the forces: it is not a parameter of the function, which raises in every call. -/
theorem C144_cancelled_refuted :
    ∃ f, simpNumPinv true false oneQ [.sym "u".toList] [.dyn "q".toList 0, .dyn "q".toList 1] cancelledPinv cancelled = .ok f ∧
      ∀ q qd qdd p, ∃ e, f.call q qd qdd p = .error e := by
  have hf : DynsOf [.dyn "q".toList 0, .dyn "q".toList 1] cancelled := by
    constructor
    · simp [cancelled, Expr.atoms]
    · simp [cancelled, Expr.atoms]
  obtain ⟨f, h⟩ := (C144_returns (q := oneQ) (forces := [.sym "u".toList]) (pinv := cancelledPinv) hf).2 ⟨
    ⟨.atom (.dyn "q".toList 1), by simp [cancelled], .inr ⟨"q".toList, 1, by simp [Expr.atoms]⟩⟩, by
      intro e he m k hm
      simp only [cancelled, List.mem_cons, List.not_mem_nil, or_false] at he
      rcases he with rfl | rfl
      · simp only [Expr.atoms, List.mem_singleton, Quantity.dyn.injEq] at hm
        left
        simp [oneQ, hm.1]
      · simp [Expr.atoms] at hm⟩
  refine ⟨f, h, fun q qd qdd p => ?_⟩
  obtain ⟨h1, h2, -, -, h5⟩ := C144_params hf h
  have hm : "m".toList ∉ f.params := fun hm => by
    obtain ⟨-, -, e, he, ha⟩ := (h5 _).1 hm
    simp only [cancelled, List.mem_cons, List.not_mem_nil, or_false] at he
    rcases he with rfl | rfl <;> simp [Expr.atoms] at ha
  rw [PinvFun.call]
  split_ifs with h6 h7
  · exact ⟨_, rfl⟩
  · exact ⟨_, rfl⟩
  · exact absurd ⟨_, by rw [h2, cancelledPinv]; exact List.mem_singleton.2 rfl, .sym "m".toList, by simp [Expr.atoms], hm⟩ h7

/-- The mass `m` moved by `u - k q`: `m q'' + k q`, from `q'` and `m (u - k q)`. -/
example : ∃ f, simpNumPinv true false oneQ [.sym "u".toList] [.dyn "q".toList 1, .dyn "q".toList 0]
      [.add (.mul (.atom (.sym "m".toList)) (.atom (.dyn "q".toList 2))) (.mul (.atom (.sym "k".toList)) (.atom (.dyn "q".toList 0)))]
      [.atom (.dyn "q".toList 1), .mul (.atom (.sym "m".toList)) (.add (.atom (.sym "u".toList))
        (.mul (.num (-1)) (.mul (.atom (.sym "k".toList)) (.atom (.dyn "q".toList 0)))))] = .ok f ∧
    f.params = ["k".toList, "m".toList] ∧ f.call [2] [0] [5] [3, 10] = .ok [56] := by
  have hf : DynsOf [.dyn "q".toList 1, .dyn "q".toList 0] [.atom (.dyn "q".toList 1), .mul (.atom (.sym "m".toList)) (.add (.atom (.sym "u".toList))
        (.mul (.num (-1)) (.mul (.atom (.sym "k".toList)) (.atom (.dyn "q".toList 0)))))] := by
    constructor
    · simp [Expr.atoms]
    · simp [Expr.atoms]
  obtain ⟨f, h⟩ := (C144_returns (q := oneQ) (forces := [.sym "u".toList])
    (pinv := [.add (.mul (.atom (.sym "m".toList)) (.atom (.dyn "q".toList 2))) (.mul (.atom (.sym "k".toList)) (.atom (.dyn "q".toList 0)))]) hf).2 ⟨
    ⟨.atom (.dyn "q".toList 1), by simp, .inr ⟨"q".toList, 1, by simp [Expr.atoms]⟩⟩, by
      intro e he m k hm
      left
      simp only [List.mem_cons, List.not_mem_nil, or_false] at he
      rcases he with rfl | rfl <;> simp [Expr.atoms] at hm <;> simp [oneQ, hm.1]⟩
  obtain ⟨h1, h2, h3, h4, h5⟩ := C144_params hf h
  have hp : f.params = ["k".toList, "m".toList] := by
    have hmem : ∀ n, n ∈ f.params ↔ n ∈ ["k".toList, "m".toList] := by
      intro n
      rw [h5]
      simp only [List.mem_cons, List.not_mem_nil, or_false, exists_eq_or_imp, exists_eq_left, Expr.atoms, List.nil_append, List.cons_append, Quantity.sym.injEq,
        reduceCtorEq, false_or, or_false]
      constructor
      · rintro ⟨-, h1, h2 | h2 | h2⟩
        · exact .inr h2
        · exact absurd h2 h1
        · exact .inl h2
      · rintro (rfl | rfl)
        · exact ⟨by decide, by decide, .inr (.inr rfl)⟩
        · exact ⟨by decide, by decide, .inl rfl⟩
    have hperm : f.params.Perm ["k".toList, "m".toList] := (List.perm_ext_iff_of_nodup h3 (by decide)).2 hmem
    exact hperm.eq_of_pairwise' h4 (by decide)
  refine ⟨f, h, hp, ?_⟩
  have := C144_values f fun a => match a with
    | .sym n => if n = "k".toList then 3 else 10
    | .dyn _ 0 => 2
    | .dyn _ 1 => 0
    | .dyn _ _ => 5
  rw [h1, h2, hp, if_pos] at this
  · simpa [oneQ, Expr.eval, show ((10 : ℝ) * 5 + 3 * 2) = 56 by norm_num] using this
  · simp only [List.mem_singleton, forall_eq, Expr.atoms, List.cons_append, List.nil_append, List.mem_cons, List.not_mem_nil, or_false]
    rintro a (rfl | rfl | rfl | rfl) <;> simp [oneQ]

end Chords.Props
