import Verif.Props.TimeUnit
import Verif.Props.PsCost

/-! # C192: a motion run backwards -/

namespace Chords.Units
open Finset Polynomial Chords.Points Chords.Bary Chords.BuTd Chords.Equi Chords.PhScheme Chords.Problem Chords.Spec Chords.Props Chords.TimeScale

/-! ## Mirrored points -/

theorem negRev_negRev (l : List ℝ) : negRev (negRev l) = l := by
  simp [negRev, Function.comp_def]

theorem negRev_length (l : List ℝ) : (negRev l).length = l.length := by simp [negRev]

theorem mem_negRev {l : List ℝ} {x : ℝ} : x ∈ negRev l ↔ -x ∈ l := by
  simp only [negRev, List.mem_map, List.mem_reverse]
  exact ⟨by rintro ⟨y, hy, rfl⟩; rwa [neg_neg], fun h => ⟨-x, h, neg_neg x⟩⟩

theorem arr_negRev (l : List ℝ) {i : ℕ} (hi : i < l.length) : arr (negRev l) i = -arr l (l.length - 1 - i) := by
  have h : l.length - 1 - i < l.length := by omega
  simp [arr, negRev, List.getD_eq_getElem?_getD, hi, h]

/-- An increasing list whose values have their opposites in it is its own mirror image. -/
theorem negRev_self {l : List ℝ} (hs : l.Pairwise (· < ·)) (h : ∀ x ∈ l, -x ∈ l) : negRev l = l := by
  have hs' : (negRev l).Pairwise (· < ·) := by
    rw [negRev, List.pairwise_map, List.pairwise_reverse]
    exact hs.imp fun h => neg_lt_neg h
  refine List.Perm.eq_of_pairwise (le := (· < ·)) (fun a b _ _ h1 h2 => absurd h1 (lt_asymm h2)) hs' hs
    ((List.perm_ext_iff_of_nodup (hs'.imp fun h => ne_of_lt h) (hs.imp fun h => ne_of_lt h)).2 fun x => ?_)
  rw [mem_negRev]
  exact ⟨fun hx => by simpa using h _ hx, h x⟩

theorem legendre_parity (n : ℕ) : (legendre n).comp (-X) = C ((-1) ^ n) * legendre n := by
  induction n using Nat.twoStepInduction with
  | zero => simp [legendre]
  | one => simp [legendre]
  | more n h1 h2 =>
    have e1 : ((-1 : ℝ)) ^ (n + 1) = -(-1) ^ n := by rw [pow_succ]; ring
    have e2 : ((-1 : ℝ)) ^ (n + 2) = (-1) ^ n := by rw [pow_succ, pow_succ]; ring
    rw [legendre, sub_comp, mul_comp, mul_comp, mul_comp, C_comp, C_comp, X_comp, h1, h2, e1, e2, map_neg]
    ring

theorem legendre_root {n : ℕ} {x : ℝ} (h : (legendre n).eval x = 0) : (legendre n).eval (-x) = 0 := by
  have := congrArg (eval x) (legendre_parity n)
  simpa [h] using this

theorem legendre_extreme {n : ℕ} {x : ℝ} (h : (derivative (legendre n)).eval x = 0) : (derivative (legendre n)).eval (-x) = 0 := by
  have := congrArg (fun p => eval x (derivative p)) (legendre_parity n)
  simp only [derivative_C_mul, derivative_comp, eval_mul, h, mul_zero] at this
  simpa using this

theorem LG_mirror (N : ℕ) (hN : 1 ≤ N) : negRev (LG N) = LG N := by
  obtain ⟨L, h1, h2, h3, -⟩ := C21_points (scheme := "LG") (by decide) (order := 2) (by norm_num) (N := N) (by simpa [minPoints] using hN)
  obtain rfl : LG N = L := by simpa [collPoints] using h1
  refine negRev_self h3 fun x hx => ?_
  have h0 : legendre N ≠ 0 := by
    rintro e
    simp [LG, realRoots, e] at hx
  simp only [LG, realRoots, Multiset.mem_sort, mem_roots h0, IsRoot.def] at hx ⊢
  exact legendre_root hx

theorem LGL_mirror (N : ℕ) (hN : 2 ≤ N) : negRev (LGL N) = LGL N := by
  obtain ⟨L, h1, h2, h3, -⟩ := C21_points (scheme := "LGL") (by decide) (order := 2) (by norm_num) (N := N) (by simpa [minPoints] using hN)
  obtain rfl : LGL N = L := by simpa [collPoints] using h1
  refine negRev_self h3 fun x hx => ?_
  simp only [LGL, realRoots, List.mem_append, List.mem_singleton, Multiset.mem_sort] at hx ⊢
  rcases hx with (rfl | hx) | rfl
  · simp
  · refine .inl (.inr ?_)
    have h0 : derivative (legendre (N - 1)) ≠ 0 := by
      rintro e
      simp [e] at hx
    rw [mem_roots h0, IsRoot.def] at hx ⊢
    exact legendre_extreme hx
  · simp

/-! ## Arrays in the opposite order -/

/-- The row that comes in the place of row `i` when the first `L` rows are put in the opposite order. -/
def flip (L i : ℕ) : ℕ := if i < L then L - 1 - i else i

theorem flip_flip (L i : ℕ) : flip L (flip L i) = i := by
  unfold flip
  split
  · rw [if_pos (by omega)]
    omega
  · rfl

theorem flip_lt {L i : ℕ} (h : i < L) : flip L i < L := by
  unfold flip
  rw [if_pos h]
  omega

/-- The arrays with the first `L` rows of the states and the first `N` rows of the controls and multipliers in the opposite order. -/
def turned (L N : ℕ) (v : Vars) : Vars := ⟨fun i => v.x (flip L i), fun i => v.xd (flip L i), fun i => v.u (flip N i), fun i => v.lam (flip N i)⟩

/-- The motion run backwards: the rows in the opposite order, and the derivatives of odd order with the opposite sign. -/
noncomputable def backwards (L N n_q : ℕ) (v : Vars) : Vars := rescaled (-1) n_q (turned L N v)

/-- The system of the motions run backwards. -/
noncomputable def backDyn (n_q : ℕ) (F : Dyn) : Dyn := rescaledDyn (-1) n_q F

theorem turned_turned (L N : ℕ) (v : Vars) : turned L N (turned L N v) = v := by
  cases v
  simp only [turned, flip_flip]

theorem turned_lev (L N : ℕ) (v : Vars) (order n_q k i j : ℕ) : (turned L N v).lev order n_q k i j = v.lev order n_q k (flip L i) j := rfl

theorem arr_flip {l : List ℝ} {i : ℕ} (hi : i < l.length) : arr (negRev l) i = -arr l (flip l.length i) := by
  rw [arr_negRev l hi, flip, if_pos hi]

theorem tauToT_neg (τ t0 t1 : ℝ) : tauToT (-τ) t1 t0 = tauToT τ t0 t1 := by
  unfold tauToT
  ring

section
variable {F : Dyn} {v : Vars} {order n_q deg N : ℕ} {taus coll nodes : List ℝ} {t0 t1 : ℝ}

theorem traj_turned (h : IsTrajectory v order n_q deg taus t0 t1) : IsTrajectory (turned taus.length N v) order n_q deg (negRev taus) t1 t0 := by
  obtain ⟨Q, hQ⟩ := h
  refine ⟨Q, fun j hj => ⟨(hQ j hj).1, fun k hk i hi => ?_⟩⟩
  rw [negRev_length] at hi
  rw [turned_lev, arr_flip hi, tauToT_neg, (hQ j hj).2 k hk _ (flip_lt hi)]

theorem coll_turned (h : Collocated F v taus coll) : Collocated F (turned taus.length coll.length v) (negRev taus) (negRev coll) := by
  intro m hm
  rw [negRev_length] at hm
  obtain ⟨i, hi, h1, h2⟩ := h _ (flip_lt hm)
  refine ⟨flip taus.length i, by rw [negRev_length]; exact flip_lt hi, ?_, ?_⟩
  · rw [arr_flip (flip_lt hi), flip_flip, arr_flip hm, h1]
  · simp only [turned, flip_flip]
    exact h2

theorem ntraj_turned {n : ℕ} (h : IsNodeTrajectory v order n_q n nodes taus t0 t1) :
    IsNodeTrajectory (turned taus.length N v) order n_q n (negRev nodes) (negRev taus) t1 t0 := by
  obtain ⟨p, hp⟩ := h
  refine ⟨p, fun c hc => ⟨(hp c hc).1, fun i hi => ?_⟩⟩
  rw [negRev_length] at hi
  rw [arr_flip hi, tauToT_neg, mem_negRev, neg_neg]
  exact (hp c hc).2 _ (flip_lt hi)

theorem traj_iff : IsTrajectory v order n_q deg taus t0 t1 ↔ IsTrajectory (turned taus.length N v) order n_q deg (negRev taus) t1 t0 := by
  refine ⟨traj_turned, fun h => ?_⟩
  have := traj_turned (N := N) h
  rwa [negRev_length, turned_turned, negRev_negRev] at this

theorem coll_iff : Collocated F v taus coll ↔ Collocated F (turned taus.length coll.length v) (negRev taus) (negRev coll) := by
  refine ⟨coll_turned, fun h => ?_⟩
  have := coll_turned h
  rwa [negRev_length, negRev_length, turned_turned, negRev_negRev, negRev_negRev] at this

theorem ntraj_iff {n : ℕ} : IsNodeTrajectory v order n_q n nodes taus t0 t1 ↔
    IsNodeTrajectory (turned taus.length N v) order n_q n (negRev nodes) (negRev taus) t1 t0 := by
  refine ⟨ntraj_turned, fun h => ?_⟩
  have := ntraj_turned (N := N) h
  rwa [negRev_length, turned_turned, negRev_negRev, negRev_negRev] at this

/-- Backwards in time: the arrays turned around and the clock with the opposite sign. -/
theorem traj_backwards (ho : 1 ≤ order) : IsTrajectory v order n_q deg taus t0 t1 ↔ IsTrajectory (backwards taus.length N n_q v) order n_q deg (negRev taus) t0 t1 := by
  have e0 : -1 * t1 + (t0 + t1) = t0 := by ring
  have e1 : -1 * t0 + (t0 + t1) = t1 := by ring
  have e2 : (-1 : ℝ)⁻¹ * t1 + (t0 + t1) = t0 := by norm_num
  have e3 : (-1 : ℝ)⁻¹ * t0 + (t0 + t1) = t1 := by norm_num
  rw [traj_iff (N := N)]
  constructor
  · intro h
    have := traj_rescale (κ := -1) (by norm_num) (t0 + t1) ho h
    rwa [e0, e1] at this
  · intro h
    have := traj_rescale (κ := (-1)⁻¹) (by norm_num) (t0 + t1) ho h
    unfold backwards at this
    rwa [rescaled_inv (by norm_num), e2, e3] at this

theorem ntraj_backwards {n : ℕ} : IsNodeTrajectory v order n_q n nodes taus t0 t1 ↔
    IsNodeTrajectory (backwards taus.length N n_q v) order n_q n (negRev nodes) (negRev taus) t0 t1 := by
  have e0 : -1 * t1 + (t0 + t1) = t0 := by ring
  have e1 : -1 * t0 + (t0 + t1) = t1 := by ring
  have e2 : (-1 : ℝ)⁻¹ * t1 + (t0 + t1) = t0 := by norm_num
  have e3 : (-1 : ℝ)⁻¹ * t0 + (t0 + t1) = t1 := by norm_num
  rw [ntraj_iff (N := N)]
  constructor
  · intro h
    have := ntraj_rescale (κ := -1) (by norm_num) (t0 + t1) h
    rwa [e0, e1] at this
  · intro h
    have := ntraj_rescale (κ := (-1)⁻¹) (by norm_num) (t0 + t1) h
    unfold backwards at this
    rwa [rescaled_inv (by norm_num), e2, e3] at this

theorem coll_backwards : Collocated F v taus coll ↔ Collocated (backDyn n_q F) (backwards taus.length coll.length n_q v) (negRev taus) (negRev coll) := by
  rw [coll_iff]
  constructor
  · exact fun h => coll_rescale (κ := -1) (by norm_num) h
  · intro h
    have := coll_rescale (n_q := n_q) (κ := (-1)⁻¹) (by norm_num) h
    unfold backwards backDyn at this
    rwa [rescaled_inv (by norm_num), rescaledDyn_inv (by norm_num)] at this
end

/-! ## Pseudospectral problems of one interval -/

/-- The schemes of bottom-up and top-down problems whose points are the mirror images of one another. -/
inductive Mirror : String → String → Prop
  | LG : Mirror "LG" "LG"
  | CG : Mirror "CG" "CG"
  | LGL : Mirror "LGL" "LGL"
  | CGL : Mirror "CGL" "CGL"
  | LGR : Mirror "LGR" "LGR_inv"
  | LGR_inv : Mirror "LGR_inv" "LGR"
  | CGR : Mirror "CGR" "CGR_inv"
  | CGR_inv : Mirror "CGR_inv" "CGR"

theorem CG_mirror (N : ℕ) : negRev (CG N) = CG N := (C22_CG N).2.2.2.1

theorem CGL_mirror {N : ℕ} (hN : 2 ≤ N) : negRev (CGL N) = CGL N := (C22_CGL hN).2.2.2.2.1

theorem Mirror.points {S S' : String} (h : Mirror S S') {N order : ℕ} (ho : 1 ≤ order) (hN : minPoints S ≤ N) : ∃ coll full, buCollPoints N S order = .ok coll ∧ coll.length = N ∧
    buCollPoints N S' order = .ok (negRev coll) ∧ buArrPoints N S order = .ok full ∧ buArrPoints N S' order = .ok (negRev full) ∧
    tdConstructionPoints N S order = .ok full ∧ tdConstructionPoints N S' order = .ok (negRev full) ∧
    S ∈ buImplemented ∧ S' ∈ buImplemented ∧ minPoints S' ≤ N ∧ (S ∈ gaussLike ↔ S' ∈ gaussLike) := by
  have b : S ∈ buImplemented ∧ S' ∈ buImplemented ∧ minPoints S' ≤ N ∧ (S ∈ gaussLike ↔ S' ∈ gaussLike) := by
    cases h <;> refine ⟨by decide, by decide, by simpa [minPoints] using hN, by decide⟩
  obtain ⟨coll, full, s, h1, h2, h3, -, -, -, -, h4, -⟩ := C32_rows b.1 ho hN
  obtain ⟨coll', full', s', h1', h2', h3', -, -, -, -, h4', -⟩ := C32_rows b.2.1 ho b.2.2.1
  have hc : coll' = negRev coll := by
    cases h <;> simp [buCollPoints, minPoints] at h1 h1' hN <;> subst h1 h1'
    · exact (LG_mirror N hN).symm
    · exact (CG_mirror N).symm
    · exact (LGL_mirror N hN).symm
    · exact (CGL_mirror hN).symm
    · rfl
    · exact (negRev_negRev _).symm
    · rfl
    · exact (negRev_negRev _).symm
  subst hc
  have hf : full' = negRev full := by
    cases h <;> simp [tdConstructionPoints, h1, h1', gaussLike, radauLike, radauInv_eq, lobatoLike, bind, Except.bind, pure, Except.pure] at h3 h3' <;>
      subst h3 h3' <;> simp [negRev, Function.comp_def] <;> simpa [negRev] using Except.ok.inj (h1.symm.trans h1')
  subst hf
  exact ⟨coll, full, h1, h4, h1', h2, h2', h3, h3', b⟩

/-- C192, bottom-up problems. -/
theorem C192_bu {S S' : String} (h : Mirror S S') {order : ℕ} (ho : 1 ≤ order) {N : ℕ} (hN : minPoints S ≤ N) (h1 : 2 ≤ N ∨ S ∉ gaussLike) (F : Dyn) (n_q : ℕ)
    {t0 t1 : ℝ} (ht : t0 ≠ t1) :
    ∃ full C C', buArrPoints N S order = .ok full ∧ buConstraints F S N order n_q t0 t1 = .ok C ∧ buConstraints (backDyn n_q F) S' N order n_q t0 t1 = .ok C' ∧
      ∀ v, C v ↔ C' (backwards full.length N n_q v) := by
  obtain ⟨coll, full, a1, a0, a2, a3, a4, a5, a6, a7, a8, a9, a10⟩ := h.points ho hN
  obtain ⟨_, _, C, k1, k2, hC, hv⟩ := C30_feasible a7 ho hN h1 F n_q ht
  obtain ⟨_, _, C', k1', k2', hC', hv'⟩ := C30_feasible a8 ho a9 (by rwa [← a10]) (backDyn n_q F) n_q ht
  obtain rfl := Except.ok.inj (a1.symm.trans k1)
  obtain rfl := Except.ok.inj (a3.symm.trans k2)
  obtain rfl := Except.ok.inj (a2.symm.trans k1')
  obtain rfl := Except.ok.inj (a4.symm.trans k2')
  refine ⟨full, C, C', a3, hC, hC', fun v => ?_⟩
  subst a0
  rw [hv, hv', traj_backwards ho, coll_backwards (n_q := n_q)]

/-- C192, top-down problems. -/
theorem C192_td {S S' : String} (h : Mirror S S') {order : ℕ} (ho : 1 ≤ order) {N : ℕ} (hN : minPoints S ≤ N) (F : Dyn) (n_q : ℕ) {t0 t1 : ℝ} (ht : t0 ≠ t1) :
    ∃ full C C', tdConstructionPoints N S order = .ok full ∧ tdConstraints F S N order n_q t0 t1 = .ok C ∧ tdConstraints (backDyn n_q F) S' N order n_q t0 t1 = .ok C' ∧
      ∀ v, (∃ q, C v q) ↔ ∃ q, C' (backwards full.length N n_q v) q := by
  obtain ⟨coll, full, a1, a0, a2, a3, a4, a5, a6, a7, a8, a9, a10⟩ := h.points ho hN
  obtain ⟨_, _, _, C, k1, k2, -, hC, hv, -⟩ := C31_feasible a7 ho hN F n_q ht
  obtain ⟨_, _, _, C', k1', k2', -, hC', hv', -⟩ := C31_feasible a8 ho a9 (backDyn n_q F) n_q ht
  obtain rfl := Except.ok.inj (a1.symm.trans k1)
  obtain rfl := Except.ok.inj (a5.symm.trans k2)
  obtain rfl := Except.ok.inj (a2.symm.trans k1')
  obtain rfl := Except.ok.inj (a6.symm.trans k2')
  refine ⟨full, C, C', a5, hC, hC', fun v => ?_⟩
  subst a0
  rw [hv, hv', traj_backwards ho, coll_backwards (n_q := n_q)]

/-- The same for node based problems, where the schemes of Gauss have the nodes at one end or at the other. -/
inductive NodeMirror : String → String → Prop
  | LG : NodeMirror "LG" "LG_inv"
  | LG_inv : NodeMirror "LG_inv" "LG"
  | CG : NodeMirror "CG" "CG_inv"
  | CG_inv : NodeMirror "CG_inv" "CG"
  | LGL : NodeMirror "LGL" "LGL"
  | CGL : NodeMirror "CGL" "CGL"
  | LGR : NodeMirror "LGR" "LGR_inv"
  | LGR_inv : NodeMirror "LGR_inv" "LGR"
  | CGR : NodeMirror "CGR" "CGR_inv"
  | CGR_inv : NodeMirror "CGR_inv" "CGR"

theorem NodeMirror.points {S S' : String} (h : NodeMirror S S') {N : ℕ} (hN : minPoints S ≤ N) : ∃ coll n nodes full, collPoints N S = .ok coll ∧ coll.length = N ∧
    collPoints N S' = .ok (negRev coll) ∧ nColToNNodes S N = .ok n ∧ nColToNNodes S' N = .ok n ∧ nodePoints n S = .ok nodes ∧ nodePoints n S' = .ok (negRev nodes) ∧
    arrPoints N S = .ok full ∧ arrPoints N S' = .ok (negRev full) ∧
    S ∈ implemented ∧ S' ∈ implemented ∧ minPoints S' ≤ N ∧ S ∉ gauss2 ++ ["D2"] ∧ S' ∉ gauss2 ++ ["D2"] ∧ (S ∈ gaussLike ++ gaussInv ↔ S' ∈ gaussLike ++ gaussInv) := by
  have b : S ∈ implemented ∧ S' ∈ implemented ∧ minPoints S' ≤ N ∧ S ∉ gauss2 ++ ["D2"] ∧ S' ∉ gauss2 ++ ["D2"] ∧
      (S ∈ gaussLike ++ gaussInv ↔ S' ∈ gaussLike ++ gaussInv) := by
    cases h <;> refine ⟨by decide, by decide, by simpa [minPoints] using hN, by decide, by decide, by decide⟩
  obtain ⟨coll, n, nodes, full, h1, h2, h3, h4, -, -, -, -, -, -, h5, -⟩ := node_rows b.1 hN
  obtain ⟨coll', n', nodes', full', h1', h2', h3', h4', -, -, -, -, -, -, h5', -⟩ := node_rows b.2.1 b.2.2.1
  have hc : coll' = negRev coll := by
    cases h <;> simp [collPoints, minPoints] at h1 h1' hN <;> subst h1 h1'
    · exact (LG_mirror N hN).symm
    · exact (LG_mirror N hN).symm
    · exact (CG_mirror N).symm
    · exact (CG_mirror N).symm
    · exact (LGL_mirror N hN).symm
    · exact (CGL_mirror hN).symm
    · rfl
    · exact (negRev_negRev _).symm
    · rfl
    · exact (negRev_negRev _).symm
  subst hc
  have hn : n' = n := by
    cases h <;> simp [nColToNNodes, gaussLike, gaussInv_eq, gauss2_eq, radauLike, radauInv_eq, lobatoLike] at h2 h2' <;> omega
  subst hn
  have hs : nodes' = negRev nodes ∧ full' = negRev full := by
    cases h <;> simp [nColToNNodes, gaussLike, gaussInv_eq, gauss2_eq, radauLike, radauInv_eq, lobatoLike] at h2 h2' <;> subst h2 <;>
      simp [nodePoints, arrPoints, nColToNNodes, h1, h1', gaussLike, gaussInv_eq, gauss2_eq, radauLike, radauInv_eq, lobatoLike, bind, Except.bind, pure, Except.pure] at h3 h3' h4 h4' <;>
      subst h3 h3' h4 h4' <;> simp [negRev, Function.comp_def] <;> simpa [negRev] using Except.ok.inj (h1.symm.trans h1')
  obtain ⟨rfl, rfl⟩ := hs
  exact ⟨coll, n', nodes, full, h1, h5, h1', h2, h2', h3, h3', h4, h4', b⟩

/-- C192, node based problems. -/
theorem C192_node {S S' : String} (h : NodeMirror S S') {order : ℕ} (ho : 1 ≤ order) (hord : order ≤ 2 ∨ S ∉ gaussLike ++ gaussInv) {N : ℕ} (hN : minPoints S ≤ N) (F : Dyn)
    (n_q : ℕ) {t0 t1 : ℝ} (ht : t0 ≠ t1) :
    ∃ full C C', arrPoints N S = .ok full ∧ nodeConstraints F S N order n_q t0 t1 = .ok C ∧ nodeConstraints (backDyn n_q F) S' N order n_q t0 t1 = .ok C' ∧
      ∀ v, C v ↔ C' (backwards full.length N n_q v) := by
  obtain ⟨coll, n, nodes, full, a1, a0, a2, b1, b2, b3, b4, a3, a4, c1, c2, c3, c4, c5, c6⟩ := h.points hN
  obtain ⟨_, _, _, _, C, k1, k2, k3, k4, hC, hv⟩ := C73_feasible c1 c4 ho hord hN F n_q ht
  obtain ⟨_, _, _, _, C', k1', k2', k3', k4', hC', hv'⟩ := C73_feasible c2 c5 ho (by rwa [← c6]) c3 (backDyn n_q F) n_q ht
  obtain rfl := Except.ok.inj (a1.symm.trans k1)
  obtain rfl := Except.ok.inj (a2.symm.trans k1')
  obtain rfl := Except.ok.inj (b1.symm.trans k2)
  obtain rfl := Except.ok.inj (b2.symm.trans k2')
  obtain rfl := Except.ok.inj (b3.symm.trans k3)
  obtain rfl := Except.ok.inj (b4.symm.trans k3')
  obtain rfl := Except.ok.inj (a3.symm.trans k4)
  obtain rfl := Except.ok.inj (a4.symm.trans k4')
  refine ⟨full, C, C', a3, hC, hC', fun v => ?_⟩
  subst a0
  rw [hv, hv', ntraj_backwards, coll_backwards (n_q := n_q)]

theorem LGLm_mirror (N : ℕ) : negRev (LGLm N) = LGLm N := by
  have e : LGLm N = realRoots (derivative (legendre (N + 1))) := by
    simp [LGLm, LGL]
  have h := LGL_mirror (N + 2) (by omega)
  rw [e]
  simpa [LGL, negRev] using h

/-- The schemes that differentiate twice have symmetric points. -/
theorem second_points {S : String} (h2 : S ∈ gauss2 ++ ["D2"]) (hJ : S ≠ "JG2") {N : ℕ} (hN : minPoints S ≤ N) : ∃ coll full, collPoints N S = .ok coll ∧ coll.length = N ∧
    negRev coll = coll ∧ arrPoints N S = .ok full ∧ negRev full = full := by
  have b : S ∈ implemented := by
    rw [gauss2_eq] at h2
    simp only [List.cons_append, List.nil_append, List.mem_cons, List.not_mem_nil, or_false] at h2
    rcases h2 with rfl | rfl | rfl | rfl | rfl <;> decide
  obtain ⟨coll, n, nodes, full, h1, e2, h3, h4, -, -, -, -, -, -, h5, -⟩ := node_rows b hN
  rw [gauss2_eq] at h2
  simp only [List.cons_append, List.nil_append, List.mem_cons, List.not_mem_nil, or_false] at h2
  have hc : negRev coll = coll := by
    rcases h2 with rfl | rfl | rfl | rfl | rfl <;> simp [collPoints, minPoints] at h1 hN hJ <;> subst h1
    · exact LG_mirror N hN
    · exact CG_mirror N
    · exact LGLm_mirror N
    · exact LGL_mirror N hN
  refine ⟨coll, full, h1, h5, hc, h4, ?_⟩
  have hc' : (coll.map fun x => -x).reverse = coll := by simpa [negRev] using hc
  rcases h2 with rfl | rfl | rfl | rfl | rfl <;> simp at hJ <;>
    simp [nodePoints, arrPoints, nColToNNodes, h1, gaussLike, gaussInv_eq, gauss2_eq, radauLike, radauInv_eq, lobatoLike, otherSchemes, bind, Except.bind, pure, Except.pure] at h4
  · subst h4; simp [negRev, hc', Function.comp_def]
  · subst h4; simp [negRev, hc', Function.comp_def]
  · subst h4; simp [negRev, hc', Function.comp_def]
  · have : LGL N = coll := by simpa [collPoints] using h1
    rw [← h4, this]
    exact hc

/-- C192, node based problems with the schemes that differentiate twice. -/
theorem C192_node_second {S : String} (h2 : S ∈ gauss2 ++ ["D2"]) (hJ : S ≠ "JG2") {N : ℕ} (hN : minPoints S ≤ N) (F : Dyn) (n_q : ℕ) {t0 t1 : ℝ} (ht : t0 ≠ t1) :
    ∃ full C C', arrPoints N S = .ok full ∧ nodeConstraints F S N 2 n_q t0 t1 = .ok C ∧ nodeConstraints (backDyn n_q F) S N 2 n_q t0 t1 = .ok C' ∧
      ∀ v, C v ↔ C' (backwards full.length N n_q v) := by
  obtain ⟨coll, full, a1, a0, a2, a3, a4⟩ := second_points h2 hJ hN
  obtain ⟨_, n, _, C, k1, k2, k3, hC, hv⟩ := C73_second h2 hN F n_q ht
  obtain ⟨_, n', _, C', k1', k2', k3', hC', hv'⟩ := C73_second h2 hN (backDyn n_q F) n_q ht
  obtain rfl := Except.ok.inj (a1.symm.trans k1)
  obtain rfl := Except.ok.inj (a1.symm.trans k1')
  obtain rfl := Except.ok.inj (k2.symm.trans k2')
  obtain rfl := Except.ok.inj (a3.symm.trans k3)
  obtain rfl := Except.ok.inj (a3.symm.trans k3')
  refine ⟨full, C, C', a3, hC, hC', fun v => ?_⟩
  subst a0
  rw [hv, hv', traj_backwards (N := coll.length) (by norm_num), coll_backwards (n_q := n_q), a2, a4]

/-! ## Equispaced problems -/

theorem Reached.turn {s : Shape} (hs : s = .line ∨ s = .parab (1 / 2)) {M : ℕ} {x xn xc : ℕ → ℝ} {a an ac h : ℝ} (hr : Reached s M x xn xc a an ac h) :
    Reached s M xn x xc an a ac (-h) := by
  obtain ⟨c, c1, c2, c3⟩ := hr
  have hm : Motion c := by
    rcases hs with rfl | rfl
    · exact c1.motion
    · exact c1.motion
  have hm' : Motion fun k t => c k (h + t) := fun k t => (hm k (h + t)).comp_const_add h t
  have z : h + -h = 0 := by ring
  rcases hs with rfl | rfl
  · obtain ⟨b, hb⟩ := c1.top_line
    refine ⟨fun k t => c k (h + t), ⟨hm', fun p hp => by simp [c2 p hp], ⟨b, fun t => ?_⟩, ?_⟩, fun p hp => ?_, fun θ hθ => by simp at hθ⟩
    · have := c1.top_end
      rw [hb] at this
      rw [hb, ← this]
      simp only [smul_eq_mul]
      ring
    · rw [z, hb]
      simp
    · dsimp only
      rw [z]
      exact c1.start p hp
  · obtain ⟨b, d, hb⟩ := c1.top_parabola
    refine ⟨fun k t => c k (h + t), ⟨hm', fun p hp => by simp [c2 p hp], ⟨b + 2 * h * d, d, fun t => ?_⟩, ?_, ?_⟩, fun p hp => ?_, fun θ hθ p hp => ?_⟩
    · have := c1.top_end
      rw [hb] at this
      rw [hb, ← this]
      simp only [smul_eq_mul]
      ring
    · rw [show h + 1 / 2 * -h = 1 / 2 * h by ring]
      exact c1.top_mid
    · rw [z, hb]
      simp
    · dsimp only
      rw [z]
      exact c1.start p hp
    · obtain rfl : 1 / 2 = θ := by simpa using hθ
      dsimp only
      rw [show h + 1 / 2 * -h = 1 / 2 * h by ring]
      exact c3 _ rfl p hp

/-- The schemes of equispaced problems that treat both ends of a step in the same way. -/
inductive Even (order : ℕ) : String → Prop
  | motion {scheme s} : SchemeIs (some order) scheme s order → s = .line ∨ s = .parab (1 / 2) → Even order scheme
  | levels {scheme} : scheme ∈ ["trapz", "hs", "hs_parab"] → Even order scheme

theorem Even.usable {order : ℕ} {scheme : String} (h : Even order scheme) : Usable scheme order := by
  cases h with
  | motion h _ => exact .inl ⟨_, h⟩
  | levels h => exact .inr (.inl h)

section
variable {scheme : String} {s : Shape} {order N n_q n_u : ℕ} {t0 t1 : ℝ}

private theorem flip_step {i : ℕ} (hi : i < N) : flip (N + 1) i = flip N i + 1 ∧ flip (N + 1) (i + 1) = flip N i := by
  unfold flip
  rw [if_pos (by omega : i < N + 1), if_pos hi, if_pos (by omega : i + 1 < N + 1)]
  omega

private theorem flip_le {i : ℕ} (hi : i ≤ N) : flip (N + 1) i ≤ N := by
  have := flip_lt (L := N + 1) (i := i) (by omega)
  omega

private theorem motion_turn (F : Dyn) (hs : SchemeIs (some order) scheme s order) (he : s = .line ∨ s = .parab (1 / 2)) (hN : 0 < N) (ht : t0 ≠ t1)
    {P P' : Vars → Vars → Prop} (hP : equiConstraints F scheme N order n_q n_u t0 t1 = .ok P) (hP' : equiConstraints F scheme N order n_q n_u t1 t0 = .ok P')
    {v c : Vars} (h : P v c) : P' (turned (N + 1) (N + 1) v) (turned N N c) := by
  obtain ⟨Q, hQ, hv⟩ := C91_motion F hs N n_q n_u hN ht
  obtain rfl := Except.ok.inj (hP.symm.trans hQ)
  obtain ⟨Q', hQ', hv'⟩ := C91_motion F hs N n_q n_u hN ht.symm
  obtain rfl := Except.ok.inj (hP'.symm.trans hQ')
  obtain ⟨h1, h2, h3⟩ := (hv v c).1 h
  refine (hv' _ _).2 ⟨fun i hi j hj => ?_, fun i hi => h2 _ (flip_le hi), fun θ hθ => ⟨fun i hi => (h3 θ hθ).1 _ (flip_lt hi), fun hl i hi m hm => ?_⟩⟩
  · simp only [turned_lev, (flip_step hi).1, (flip_step hi).2]
    have := Reached.turn he (h1 _ (flip_lt hi) j hj)
    rwa [show -((t1 - t0) / (N : ℝ)) = (t0 - t1) / N by ring] at this
  · simp only [turned, (flip_step hi).1, (flip_step hi).2]
    rw [(h3 θ hθ).2 hl _ (flip_lt hi) m hm]
    have : θ = 1 / 2 := by
      rcases he with rfl | rfl
      · simp at hθ
      · simpa using hθ.symm
    rw [this]
    ring

private theorem levels_turn (F : Dyn) (hs : scheme = "trapz" ∧ s = .line ∨ (scheme = "hs" ∨ scheme = "hs_parab") ∧ s = .parab (1 / 2)) (hN : 0 < N) (ht : t0 ≠ t1)
    {P P' : Vars → Vars → Prop} (hP : equiConstraints F scheme N order n_q n_u t0 t1 = .ok P) (hP' : equiConstraints F scheme N order n_q n_u t1 t0 = .ok P')
    {v c : Vars} (h : P v c) : P' (turned (N + 1) (N + 1) v) (turned N N c) := by
  obtain ⟨Q, hQ, hv⟩ := C91_levels F hs N order n_q n_u hN ht
  obtain rfl := Except.ok.inj (hP.symm.trans hQ)
  obtain ⟨Q', hQ', hv'⟩ := C91_levels F hs N order n_q n_u hN ht.symm
  obtain rfl := Except.ok.inj (hP'.symm.trans hQ')
  obtain ⟨h1, h2, h3⟩ := (hv v c).1 h
  refine (hv' _ _).2 ⟨fun i hi j hj p hp => ?_, fun i hi => h2 _ (flip_le hi), fun hl => ⟨fun i hi => (h3 hl).1 _ (flip_lt hi), fun e i hi m hm => ?_⟩⟩
  · simp only [turned_lev, (flip_step hi).1, (flip_step hi).2]
    have := Reached.turn (hs.imp And.right And.right) (h1 _ (flip_lt hi) j hj p hp)
    rwa [show -((t1 - t0) / (N : ℝ)) = (t0 - t1) / N by ring] at this
  · simp only [turned, (flip_step hi).1, (flip_step hi).2]
    rw [(h3 hl).2 e _ (flip_lt hi) m hm, add_comm]

/-- C192, equispaced problems. -/
theorem C192_equispaced (hs : Even order scheme) (ho : 1 ≤ order) (hN : 0 < N) (F : Dyn) (n_q n_u : ℕ) (ht : t0 ≠ t1) :
    ∃ P P', equiConstraints F scheme N order n_q n_u t0 t1 = .ok P ∧ equiConstraints (backDyn n_q F) scheme N order n_q n_u t0 t1 = .ok P' ∧
      ∀ v c, P v c ↔ P' (backwards (N + 1) (N + 1) n_q v) (backwards N N n_q c) := by
  obtain ⟨P, -, hP, -, -, -⟩ := C190_equispaced hs.usable ho hN F n_q n_u (κ := 1) one_ne_zero 0 ht
  obtain ⟨R, P', hR, hP', hv, -⟩ := C190_equispaced hs.usable ho hN F n_q n_u (κ := -1) (by norm_num) (t0 + t1) ht.symm
  rw [show -1 * t1 + (t0 + t1) = t0 by ring, show -1 * t0 + (t0 + t1) = t1 by ring] at hP'
  have key : ∀ {t0 t1 : ℝ} {P R : Vars → Vars → Prop} (_ : t0 ≠ t1) (_ : equiConstraints F scheme N order n_q n_u t0 t1 = .ok P)
      (_ : equiConstraints F scheme N order n_q n_u t1 t0 = .ok R) {v c : Vars} (_ : P v c), R (turned (N + 1) (N + 1) v) (turned N N c) := by
    intro t0 t1 P R ht hP hR v c h
    cases hs with
    | motion a b => exact motion_turn F a b hN ht hP hR h
    | levels a =>
      simp only [List.mem_cons, List.not_mem_nil, or_false] at a
      rcases a with rfl | a
      · exact levels_turn F (.inl ⟨rfl, rfl⟩) hN ht hP hR h
      · exact levels_turn F (.inr ⟨a, rfl⟩) hN ht hP hR h
  refine ⟨P, P', hP, hP', fun v c => ?_⟩
  unfold backwards
  rw [← hv]
  refine ⟨key ht hP hR, fun h => ?_⟩
  have := key ht.symm hR hP h
  rwa [turned_turned, turned_turned] at this
end

/-! ## Costs -/

theorem integ_mirror (p : ℝ[X]) : ∫ x in (-1 : ℝ)..1, (p.comp (-X)).eval x = ∫ x in (-1 : ℝ)..1, p.eval x := by
  have h := intervalIntegral.integral_comp_neg (a := -1) (b := 1) fun x => p.eval x
  rw [neg_neg] at h
  rw [← h]
  simp

/-- Weights that are exact on mirrored points are mirrored. -/
theorem weights_mirror {N : ℕ} {pts : List ℝ} (hl : pts.length = N) (hd : Set.InjOn (arr pts) (range N : Set ℕ)) {w w' : ℕ → ℝ}
    (hw : ∀ p : ℝ[X], p.degree < N → ∑ i ∈ range N, w i * p.eval (arr pts i) = ∫ x in (-1 : ℝ)..1, p.eval x)
    (hw' : ∀ p : ℝ[X], p.degree < N → ∑ i ∈ range N, w' i * p.eval (arr (negRev pts) i) = ∫ x in (-1 : ℝ)..1, p.eval x) {i : ℕ} (hi : i < N) :
    w' (flip N i) = w i := by
  subst hl
  obtain ⟨p, hp⟩ : ∃ p, p = Lagrange.basis (range pts.length) (arr pts) i := ⟨_, rfl⟩
  have dp : p.degree < pts.length := by
    rw [hp, Lagrange.degree_basis hd (mem_range.2 hi), card_range]
    exact_mod_cast (by omega : pts.length - 1 < pts.length)
  have v1 : p.eval (arr pts i) = 1 := by rw [hp, Lagrange.eval_basis_self hd (mem_range.2 hi)]
  have v0 : ∀ k < pts.length, k ≠ i → p.eval (arr pts k) = 0 := fun k hk hki => by
    rw [hp, Lagrange.eval_basis_of_ne (Ne.symm hki) (mem_range.2 hk)]
  have dq : (p.comp (-X)).degree < pts.length := by
    have e : (p.comp (-X)).natDegree = p.natDegree := by rw [natDegree_comp, natDegree_neg, natDegree_X, mul_one]
    rcases eq_or_ne p 0 with h0 | h0
    · rw [h0, eval_zero] at v1
      exact absurd v1 (by norm_num)
    · rw [degree_eq_natDegree h0] at dp
      refine lt_of_le_of_lt degree_le_natDegree ?_
      rwa [e]
  have a := hw p dp
  have b := hw' (p.comp (-X)) dq
  rw [integ_mirror, ← a, sum_eq_single (flip pts.length i), sum_eq_single i] at b
  · rw [arr_flip (flip_lt hi), flip_flip] at b
    simpa [v1] using b
  · intro k hk hki
    rw [v0 k (mem_range.1 hk) hki, mul_zero]
  · exact fun h => absurd (mem_range.2 hi) h
  · intro k hk hki
    rw [arr_flip (mem_range.1 hk), eval_comp, eval_neg, eval_X, neg_neg, v0 _ (flip_lt (mem_range.1 hk)), mul_zero]
    rintro rfl
    exact hki (flip_flip _ _).symm
  · exact fun h => absurd (mem_range.2 (flip_lt hi)) h

theorem sum_flip (N : ℕ) (f : ℕ → ℝ) : ∑ i ∈ range N, f (flip N i) = ∑ i ∈ range N, f i := by
  rw [← sum_range_reflect]
  refine sum_congr rfl fun i hi => ?_
  have := mem_range.1 hi
  rw [flip, if_pos (by omega)]
  congr 1
  omega

/-- The pairs of schemes of the theorems above. -/
def Turns (S S' : String) : Prop := Mirror S S' ∨ NodeMirror S S' ∨ S = S' ∧ S ∈ gauss2 ++ ["D2"] ∧ S ≠ "JG2"

theorem Turns.points {S S' : String} (h : Turns S S') {N : ℕ} (hN : minPoints S ≤ N) : ∃ coll, collPoints N S = .ok coll ∧ coll.length = N ∧
    collPoints N S' = .ok (negRev coll) ∧ S ∈ implemented ∧ S' ∈ implemented ∧ minPoints S' ≤ N ∧ S ∉ jacobiSchemes ∧ S' ∉ jacobiSchemes := by
  rcases h with h | h | ⟨rfl, h, hJ⟩
  · have b : S ∈ implemented ∧ S' ∈ implemented ∧ minPoints S' ≤ N ∧ S ∉ jacobiSchemes ∧ S' ∉ jacobiSchemes := by
      cases h <;> refine ⟨by decide, by decide, by simpa [minPoints] using hN, by decide, by decide⟩
    obtain ⟨coll, -, h1, h2, h3, -⟩ := h.points (order := 2) (by norm_num) hN
    refine ⟨coll, ?_, h2, ?_, b⟩
    · cases h <;> simpa [buCollPoints, collPoints] using h1
    · cases h <;> simpa [buCollPoints, collPoints] using h3
  · have b : S ∉ jacobiSchemes ∧ S' ∉ jacobiSchemes := by cases h <;> decide
    obtain ⟨coll, -, -, -, h1, h2, h3, -, -, -, -, -, -, h4, h5, h6, -⟩ := h.points hN
    exact ⟨coll, h1, h2, h3, h4, h5, h6, b⟩
  · obtain ⟨coll, -, h1, h2, h3, -⟩ := second_points h hJ hN
    have b : S ∈ implemented ∧ S ∉ jacobiSchemes := by
      rw [gauss2_eq] at h
      simp only [List.cons_append, List.nil_append, List.mem_cons, List.not_mem_nil, or_false] at h
      rcases h with rfl | rfl | rfl | rfl | rfl <;> first | (exact absurd rfl hJ) | decide
    exact ⟨coll, h1, h2, by rw [h3]; exact h1, b.1, b.1, hN, b.2, b.2⟩

/-- C192, the costs of the problems with one interval: the controls in the opposite order cost the same. -/
theorem C192_cost {S S' : String} (h : Turns S S') {N : ℕ} (hN : minPoints S ≤ N) {order : ℕ} (ho : 1 ≤ order) (n_arr n_u : ℕ) (t0 t1 : ℝ) (u : ℕ → ℕ → ℝ) :
    PsCost.uSqCost S N n_arr order t0 t1 n_u u = PsCost.uSqCost S' N n_arr order t0 t1 n_u (fun i => u (flip N i)) ∧
    PsCost.buUSqCost S N t0 t1 n_u u = PsCost.buUSqCost S' N t0 t1 n_u (fun i => u (flip N i)) := by
  obtain ⟨coll, h1, h2, h3, h4, h5, h6, h7, h8⟩ := h.points hN
  have key : ∀ {order : ℕ}, 1 ≤ order → ∃ w w', Gauss.getWeights N S order "u" = .ok w ∧ Gauss.getWeights N S' order "u" = .ok w' ∧
      ∀ a : ℕ → ℝ, ∑ i ∈ range N, w i * a i ^ 2 = ∑ i ∈ range N, w' i * a (flip N i) ^ 2 := by
    intro order ho
    obtain ⟨c, w, k1, k2, -, k3⟩ := C28_u h4 ho hN
    obtain ⟨c', w', k1', k2', -, k3'⟩ := C28_u h5 ho h6
    obtain ⟨d, m1, -, m2⟩ := Gauss.coll_distinct h4 ho hN
    rw [coll_order (.inl h7)] at k1 m1
    rw [coll_order (.inl h8)] at k1'
    obtain rfl := Except.ok.inj (h1.symm.trans k1)
    obtain rfl := Except.ok.inj (h1.symm.trans m1)
    obtain rfl := Except.ok.inj (h3.symm.trans k1')
    refine ⟨w, w', k2, k2', fun a => ?_⟩
    rw [← sum_flip N fun i => w' i * a (flip N i) ^ 2]
    refine sum_congr rfl fun i hi => ?_
    rw [flip_flip, weights_mirror h2 m2.injOn k3 k3' (mem_range.1 hi)]
  constructor
  · obtain ⟨w, w', k1, k2, k3⟩ := key ho
    simp only [PsCost.uSqCost, PsCost.quadCost, PsCost.quadIntCas, if_true, k1, k2, bind, Except.bind, pure, Except.pure, k3]
  · obtain ⟨w, w', k1, k2, k3⟩ := key (order := 2) (by norm_num)
    simp only [PsCost.buUSqCost, PsCost.quadIntCas, if_true, k1, k2, bind, Except.bind, pure, Except.pure, k3]

/-- C192, the cost of the equispaced problems, for the schemes without a point at two fifths of the step. -/
theorem C192_cost_equispaced {m : ℕ} {scheme : String} (hj : Spec.pyIn "j" scheme = false) (T : ℝ) (N : ℕ) (a : Costs.Controls m) :
    Costs.uSqCost scheme T N a = Costs.uSqCost scheme T N ⟨fun i => a.u (flip (N + 1) i), fun i => a.u_c (flip N i), fun i => a.u_j (flip N i)⟩ := by
  have e : ∀ (f : ℕ → Fin m → ℝ) (n : ℕ) (j : Fin m), Costs.sum1 (Costs.sqArr fun i => f (flip n i)) 0 n j = Costs.sum1 (Costs.sqArr f) 0 n j := by
    intro f n j
    simp only [Costs.sum1, Nat.Ico_zero_eq_range, Costs.sqArr]
    exact sum_flip n fun i => f i j ^ 2
  have e' : ∀ (f : ℕ → Fin m → ℝ) (j : Fin m), Costs.sum1 (Costs.sqArr fun i => f (flip (N + 1) i)) 1 (N + 1 - 1) j = Costs.sum1 (Costs.sqArr f) 1 (N + 1 - 1) j := by
    intro f j
    simp only [Costs.sum1, Costs.sqArr, Nat.add_sub_cancel]
    rcases Nat.eq_zero_or_pos N with rfl | hN
    · simp
    have r := Finset.sum_Ico_reflect (fun i => f i j ^ 2) 1 (m := N) (n := N) (show N ≤ N + 1 by omega)
    rw [show N + 1 - N = 1 by omega, show N + 1 - 1 = N by omega] at r
    rw [← r]
    refine sum_congr rfl fun i hi => ?_
    have := mem_Ico.1 hi
    rw [flip, if_pos (by omega)]
    congr 2
  unfold Costs.uSqCost
  simp only [hj, Bool.false_and]
  split
  · split
    · rename_i h
      exact absurd h (by simp)
    · split <;> simp only [e, e']
  · simp only [e, e']

/-- A body with friction: `q'' = u - q'`. -/
def damped : Dyn := fun x xd u _ => [xd 0 - x 1, xd 1 + x 1 - u 0]

/-- Backwards, friction pushes the body; a free body is its own reverse. -/
example (x xd u l : ℕ → ℝ) : (zero (backDyn 1 damped x xd u l) ↔ xd 0 = x 1 ∧ xd 1 = u 0 + x 1) ∧
    (zero (backDyn 1 doubleIntegrator x xd u l) ↔ xd 0 = x 1 ∧ xd 1 = u 0) := by
  constructor
  · norm_num [backDyn, rescaledDyn, damped, zero, sub_eq_zero]
    constructor <;> rintro ⟨h1, h2⟩ <;> constructor <;> linarith
  · norm_num [backDyn, rescaledDyn, doubleIntegrator, zero, sub_eq_zero]
    intro _
    constructor <;> intro h <;> linarith

/-- With the points of Gauss, of Radau and of Lobatto, in each kind of problem. -/
example : (∃ full C C', buArrPoints 3 "LGR" 2 = .ok full ∧ buConstraints damped "LGR" 3 2 1 0 2 = .ok C ∧ buConstraints (backDyn 1 damped) "LGR_inv" 3 2 1 0 2 = .ok C' ∧
      ∀ v, C v ↔ C' (backwards full.length 3 1 v)) ∧
    (∃ full C C', tdConstructionPoints 3 "CG" 2 = .ok full ∧ tdConstraints damped "CG" 3 2 1 0 2 = .ok C ∧ tdConstraints (backDyn 1 damped) "CG" 3 2 1 0 2 = .ok C' ∧
      ∀ v, (∃ q, C v q) ↔ ∃ q, C' (backwards full.length 3 1 v) q) ∧
    (∃ full C C', arrPoints 3 "LG" = .ok full ∧ nodeConstraints damped "LG" 3 2 1 0 2 = .ok C ∧ nodeConstraints (backDyn 1 damped) "LG_inv" 3 2 1 0 2 = .ok C' ∧
      ∀ v, C v ↔ C' (backwards full.length 3 1 v)) ∧
    ∃ full C C', arrPoints 3 "LGLm" = .ok full ∧ nodeConstraints damped "LGLm" 3 2 1 0 2 = .ok C ∧ nodeConstraints (backDyn 1 damped) "LGLm" 3 2 1 0 2 = .ok C' ∧
      ∀ v, C v ↔ C' (backwards full.length 3 1 v) :=
  ⟨C192_bu .LGR (by norm_num) (by decide) (.inl (by norm_num)) damped 1 (by norm_num), C192_td .CG (by norm_num) (by decide) damped 1 (by norm_num),
    C192_node .LG (by norm_num) (.inl le_rfl) (by decide) damped 1 (by norm_num),
    C192_node_second (by decide) (by decide) (by decide) damped 1 (by norm_num)⟩

example : Even 2 "trapz_mod" ∧ Even 2 "hs_mod_parab" ∧ Even 3 "hs" := ⟨.motion .trapz_mod (.inl rfl), .motion .hs_mod_parab (.inr rfl), .levels (by decide)⟩

/-- The start from rest `t² / 2` under the control 1 is feasible with two steps of the trapezoidal rule; backwards it is a braking, from the velocity -1 to rest. -/
example : ∃ P', equiConstraints (backDyn 1 doubleIntegrator) "trapz_mod" 2 2 1 1 0 1 = .ok P' ∧
    P' (backwards 3 3 1 ⟨fun i c => if c = 0 then ((i : ℝ) / 2) ^ 2 / 2 else (i : ℝ) / 2, fun i c => if c = 0 then (i : ℝ) / 2 else 1, fun _ _ => 1, fun _ _ => 0⟩)
      (backwards 2 2 1 ⟨fun _ _ => 0, fun _ _ => 0, fun _ _ => 0, fun _ _ => 0⟩) ∧
    (backwards 3 3 1 ⟨fun i c => if c = 0 then ((i : ℝ) / 2) ^ 2 / 2 else (i : ℝ) / 2, fun i c => if c = 0 then (i : ℝ) / 2 else 1, fun _ _ => 1, fun _ _ => 0⟩).x 0 1 = -1 := by
  obtain ⟨P, P', hP, hP', h⟩ := C192_equispaced (scheme := "trapz_mod") (order := 2) (.motion .trapz_mod (.inl rfl)) (by norm_num) (N := 2) (by norm_num) doubleIntegrator 1 1
    (t0 := 0) (t1 := 1) (by norm_num)
  refine ⟨P', hP', (h _ _).1 ?_, ?_⟩
  · have e : equiConstraints doubleIntegrator "trapz_mod" 2 2 1 1 0 1 = .ok _ := rfl
    obtain rfl := Except.ok.inj (hP.symm.trans e)
    refine ⟨fun i hi j hj p hp => ?_, fun i hi => ?_, fun h => absurd h (by decide)⟩
    · obtain rfl : j = 0 := by omega
      interval_cases p
      · simp [Vars.lev]
        norm_num [trapzModAccelRestr]
        ring
      · simp [Vars.lev]
        norm_num [trapzModAccelRestr]
        ring
    · simp [zero, doubleIntegrator]
  · norm_num [backwards, rescaled, turned, flip]

example : Turns "LGR" "LGR_inv" ∧ Turns "LG" "LG_inv" ∧ Turns "LG" "LG" ∧ Turns "D2" "D2" ∧ Spec.pyIn "j" "hs_parab" = false :=
  ⟨.inl .LGR, .inr (.inl .LG), .inl .LG, .inr (.inr ⟨rfl, by decide, by decide⟩), by decide⟩

end Chords.Units
