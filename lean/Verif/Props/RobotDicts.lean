import Mathlib.Tactic.IntervalCases
import Verif.Model.RobotDicts
import Verif.Props.Robots
import Mathlib.Data.List.Nodup

/-! # C160: values given in place of those of the links -/

namespace Chords.Props
open Chords.Robots Matrix

/-! ## Specification -/

/-- `x` is the given value, or the own one when none is given. -/
def Chosen {A : Type} (given : Option A) (own x : A) : Prop := (∀ v, given = some v → x = v) ∧ (given = none → x = own)

/-- `l'` is the link `l` with the values of the dictionary in place of its own. -/
structure Replaced (l : Link) (rd : Dict) (l' : Link) : Prop where
  theta : Chosen rd.theta l.theta l'.theta
  alpha : Chosen rd.alpha l.alpha l'.alpha
  d : Chosen rd.d l.d l'.d
  a : Chosen rd.a l.a l'.a
  m : Chosen rd.m l.m l'.m
  I : Chosen rd.I l.I l'.I
  r : Chosen rd.r l.r l'.r
  mdh : l'.mdh = l.mdh
  revolute : l'.revolute = l.revolute

/-- Robots of as many links, with given values, and motions of their joints. -/
structure ReplacedAll (links : List Link) (dicts : List Dict) (q qd : ℕ → ℝ) (links' : List Link) (q' qd' : ℕ → ℝ) : Prop where
  len : links'.length = links.length
  enough : links.length ≤ dicts.length
  link : ∀ i (h : i < links.length), Replaced links[i] (dicts[i]'(by omega)) (links'[i]'(by omega))
  joint : ∀ i (h : i < links.length), Chosen (dicts[i]'(by omega)).q (q i, qd i) (q' i, qd' i)

/-! ## Lemmas -/

private theorem chosen_iff {A : Type} {given : Option A} {own x : A} (h : Chosen given own x) : x = search given own := by
  cases given with
  | none => exact h.2 rfl
  | some v => exact h.1 v rfl

private theorem chosen_search {A : Type} (given : Option A) (own : A) : Chosen given own (search given own) := by
  cases given <;> simp [Chosen, search]

private theorem replaced_eq {l l' : Link} {rd : Dict} (h : Replaced l rd l') : l' = readLink l rd := by
  obtain ⟨h1, h2, h3, h4, h5, h6, h7, h8, h9⟩ := h
  cases l'
  simp only [readLink, Link.mk.injEq]
  exact ⟨chosen_iff h1, chosen_iff h2, chosen_iff h3, chosen_iff h4, chosen_iff h5, chosen_iff h6, chosen_iff h7, h8, h9⟩

private theorem replaced_readLink (l : Link) (rd : Dict) : Replaced l rd (readLink l rd) :=
  ⟨chosen_search _ _, chosen_search _ _, chosen_search _ _, chosen_search _ _, chosen_search _ _, chosen_search _ _, chosen_search _ _, rfl, rfl⟩

private theorem loopD_eq (dicts : List Dict) (q qd q' qd' : ℕ → ℝ) (ls ls' : List Link) (k : ℕ) (s : Chain) (hlen : ls'.length = ls.length)
    (hd : k + ls.length ≤ dicts.length) (hok : Supported ls)
    (hl : ∀ i (h : i < ls.length), Replaced ls[i] (dicts[k + i]'(by omega)) (ls'[i]'(by omega)))
    (hq : ∀ i (h : i < ls.length), Chosen (dicts[k + i]'(by omega)).q (q (k + i), qd (k + i)) (q' (k + i), qd' (k + i))) :
    ∃ s', loopD dicts q qd k ls s = .ok s' ∧ loop q' qd' k ls' s = .ok s' := by
  induction ls generalizing k s ls' with
  | nil =>
    obtain rfl : ls' = [] := List.length_eq_zero_iff.1 hlen
    exact ⟨s, rfl, rfl⟩
  | cons l ls ih =>
    cases ls' with
    | nil => simp at hlen
    | cons l' ls' =>
      have hk : k < dicts.length := by rw [List.length_cons] at hd; omega
      obtain ⟨h1, h2⟩ := hok l (by simp)
      have e0 : l' = readLink l dicts[k] := replaced_eq (hl 0 (by simp))
      have e1 : (q' k, qd' k) = search dicts[k].q (q k, qd k) := chosen_iff (hq 0 (by simp))
      have m1 : l'.mdh = true := by rw [e0]; exact h1
      have m2 : l'.revolute = true := by rw [e0]; exact h2
      rw [loopD, loop, List.getElem?_eq_getElem hk]
      simp only [h1, h2, m1, m2, if_true]
      have e2 : joint dicts[k] (q k) (qd k) = (q' k, qd' k) := by
        rw [e1, joint]
        cases dicts[k].q <;> rfl
      rw [e2, e0]
      refine ih ls' (k + 1) _ (by simpa using hlen) (by rw [List.length_cons] at hd; omega) (fun x hx => hok x (by simp [hx])) ?_ ?_
      · intro i hi
        have := hl (i + 1) (by simpa using hi)
        simpa [Nat.add_assoc, Nat.add_comm 1 i] using this
      · intro i hi
        have := hq (i + 1) (by simpa using hi)
        simpa [Nat.add_assoc, Nat.add_comm 1 i] using this

private theorem loopD_short (dicts : List Dict) (q qd : ℕ → ℝ) (ls : List Link) (k : ℕ) (s : Chain) (hok : Supported ls) (hk : k ≤ dicts.length)
    (hd : dicts.length < k + ls.length) : loopD dicts q qd k ls s = .error .index := by
  induction ls generalizing k s with
  | nil => simp at hd; omega
  | cons l ls ih =>
    obtain ⟨h1, h2⟩ := hok l (by simp)
    rw [loopD]
    rcases hk.lt_or_eq with hk | hk
    · rw [List.getElem?_eq_getElem hk]
      simp only [h1, h2, if_true]
      exact ih (k + 1) _ (fun x hx => hok x (by simp [hx])) hk (by rw [List.length_cons] at hd; omega)
    · rw [List.getElem?_eq_none hk.ge]

private theorem loopD_supported (dicts : List Dict) (q qd : ℕ → ℝ) (ls : List Link) (k : ℕ) (s s' : Chain) (h : loopD dicts q qd k ls s = .ok s') :
    Supported ls := by
  induction ls generalizing k s with
  | nil => intro l hl; simp at hl
  | cons l ls ih =>
    rw [loopD] at h
    split at h
    · cases h
    · split at h
      · rename_i h1
        split at h
        · rename_i h2
          intro l' hl'
          rcases List.mem_cons.1 hl' with rfl | hl'
          · exact ⟨h1, h2⟩
          · exact ih _ _ h l' hl'
        · cases h
      · cases h

/-! ## `robot_to_sympy` -/

/-- C160: the model with given values is the model of the robot that has these values, for which C54 and C98 hold. -/
theorem C160_replace {links : List Link} (h : Supported links) {dicts : List Dict} {q qd : ℕ → ℝ} {links' : List Link} {q' qd' : ℕ → ℝ}
    (hr : ReplacedAll links dicts q qd links' q' qd') (u : ℕ → ℝ) :
    ∃ r, robotToSympyD false links dicts q qd u = .ok r ∧ robotToSympy false links' q' qd' u = .ok r := by
  obtain ⟨s, h1, h2⟩ := loopD_eq dicts q qd q' qd' links links' 0 ⟨[0], [(1, 0)], []⟩ hr.len (by simpa using hr.enough) h
    (fun i hi => by simpa using hr.link i hi) (fun i hi => by simpa using hr.joint i hi)
  exact ⟨(s, forceList s.bodies u), by simp [robotToSympyD, h1, Except.map], by simp [robotToSympy, h2, Except.map]⟩

/-- C160: axes, centres of mass, masses and inertias of the bodies are those of the given values. -/
theorem C160_pose {links : List Link} (h : Supported links) {dicts : List Dict} {q qd : ℕ → ℝ} {links' : List Link} {q' qd' : ℕ → ℝ}
    (hr : ReplacedAll links dicts q qd links' q' qd') (u : ℕ → ℝ) : ∃ r, robotToSympyD false links dicts q qd u = .ok r ∧
      r.1.bodies.length = links.length ∧ ∀ i < links.length, ∃ b, r.1.bodies[i]? = some b ∧
      b.frame = poseR (nth links') q' (i + 1) ∧ r.1.points[i + 1]? = some (poseP (nth links') q' (i + 1)) ∧
      b.cm = poseP (nth links') q' (i + 1) + poseR (nth links') q' (i + 1) *ᵥ (nth links' i).r ∧ b.mass = (nth links' i).m ∧
      b.potential = b.mass * (98 / 10) * b.cm 2 ∧ ((nth links' i).Iᵀ = (nth links' i).I → b.inertia = (nth links' i).I) := by
  obtain ⟨r, h1, h2⟩ := C160_replace h hr u
  have h' : Supported links' := fun l hl => by
    obtain ⟨i, hi, rfl⟩ := List.mem_iff_getElem.1 hl
    have hi' : i < links.length := hr.len ▸ hi
    have := hr.link i hi'
    rw [this.mdh, this.revolute]
    exact h _ (List.getElem_mem hi')
  have := C98_pose h' q' qd' u h2
  rw [hr.len] at this
  exact ⟨r, h1, this⟩

/-- C160: a dictionary is needed for each link, and more are ignored. -/
theorem C160_accepts (e : Bool) (links : List Link) (dicts : List Dict) (q qd u : ℕ → ℝ) :
    (∃ r, robotToSympyD e links dicts q qd u = .ok r) ↔ e = false ∧ Supported links ∧ links.length ≤ dicts.length := by
  constructor
  · rintro ⟨r, hr⟩
    cases e with
    | true => simp [robotToSympyD] at hr
    | false =>
      simp only [robotToSympyD, Bool.false_eq_true, if_false] at hr
      cases hl : loopD dicts q qd 0 links ⟨[0], [(1, 0)], []⟩ with
      | error x => rw [hl] at hr; cases hr
      | ok s =>
        have hs := loopD_supported dicts q qd links 0 _ _ hl
        refine ⟨rfl, hs, ?_⟩
        by_contra hc
        rw [loopD_short dicts q qd links 0 _ hs (Nat.zero_le _) (by omega)] at hl
        cases hl
  · rintro ⟨rfl, h, hlen⟩
    have hr : ReplacedAll links dicts q qd ((List.zipWith readLink links dicts)) (fun i => (search ((dicts[i]?).bind (·.q)) (q i, qd i)).1)
        (fun i => (search ((dicts[i]?).bind (·.q)) (q i, qd i)).2) := by
      refine ⟨by simpa using hlen, hlen, fun i hi => ?_, fun i hi => ?_⟩
      · rw [List.getElem_zipWith]
        exact replaced_readLink _ _
      · rw [List.getElem?_eq_getElem (show i < dicts.length by omega)]
        exact chosen_search _ _
    obtain ⟨r, h1, -⟩ := C160_replace h hr u
    exact ⟨r, h1⟩

/-- C160: with fewer dictionaries than links the call raises an IndexError. -/
theorem C160_short {links : List Link} (h : Supported links) {dicts : List Dict} (hd : dicts.length < links.length) (q qd u : ℕ → ℝ) :
    robotToSympyD false links dicts q qd u = .error .index := by
  simp [robotToSympyD, loopD_short dicts q qd links 0 ⟨[0], [(1, 0)], []⟩ h (Nat.zero_le _) (by omega), Except.map]

/-! ## `Panda_Simp` -/

private theorem setAlphas_ok (refs : List ℕ) (k : ℕ) (hk : k + refs.length ≤ 7) (heap : ℕ → Dict) :
    ∃ heap', setAlphas k refs heap = (.ok (), heap') ∧ (∀ x, x ∉ refs → heap' x = heap x) ∧
      (refs.Nodup → ∀ i (h : i < refs.length), heap' refs[i] = { heap refs[i] with alpha := some (alphaArr.getD (k + i) 0) }) ∧
      (∀ x ∈ refs, ∃ a, heap' x = { heap x with alpha := some a }) ∧
      (∀ x, refs.getLast? = some x → heap' x = { heap x with alpha := some (alphaArr.getD (k + refs.length - 1) 0) }) := by
  induction refs generalizing k heap with
  | nil => exact ⟨heap, rfl, fun _ _ => rfl, fun _ i h => by simp at h, fun x h => by simp at h, fun x h => by simp at h⟩
  | cons r refs ih =>
    rw [List.length_cons] at hk
    have hl : k < alphaArr.length := by
      have : alphaArr.length = 7 := rfl
      omega
    have hg : alphaArr[k]? = some (alphaArr.getD k 0) := by
      rw [List.getD_eq_getElem?_getD, List.getElem?_eq_getElem hl]; rfl
    obtain ⟨heap', h1, h2, h3, h4, h5⟩ := ih (k + 1) (by omega) (Function.update heap r { heap r with alpha := some (alphaArr.getD k 0) })
    refine ⟨heap', by rw [setAlphas, hg]; exact h1, ?_, ?_, ?_, ?_⟩
    · intro x hx
      rw [List.mem_cons, not_or] at hx
      rw [h2 x hx.2, Function.update_of_ne hx.1]
    · intro hn i hi
      rw [List.nodup_cons] at hn
      cases i with
      | zero =>
        rw [List.getElem_cons_zero, h2 r hn.1, Function.update_self, Nat.add_zero]
      | succ i =>
        have hi' : i < refs.length := by simpa using hi
        rw [List.getElem_cons_succ, h3 hn.2 i hi', Function.update_of_ne]
        · rw [show k + 1 + i = k + (i + 1) by omega]
        · rintro e
          exact hn.1 (e ▸ List.getElem_mem hi')
    · intro x hx
      by_cases hm : x ∈ refs
      · obtain ⟨a, ha⟩ := h4 x hm
        refine ⟨a, ?_⟩
        rw [ha]
        by_cases hr : x = r
        · subst hr; rw [Function.update_self]
        · rw [Function.update_of_ne hr]
      · obtain rfl : x = r := (List.mem_cons.1 hx).resolve_right hm
        rw [h2 x hm, Function.update_self]
        exact ⟨_, rfl⟩
    · intro x hx
      cases refs with
      | nil =>
        obtain rfl : r = x := by simpa using hx
        rw [h2 r (by simp), Function.update_self]
        simp
      | cons y ys =>
        rw [h5 x (by simpa using hx)]
        by_cases hr : x = r
        · subst hr
          rw [Function.update_self, List.length_cons (a := x), show k + 1 + (y :: ys).length - 1 = k + ((y :: ys).length + 1) - 1 by omega]
        · rw [Function.update_of_ne hr, List.length_cons (a := r), show k + 1 + (y :: ys).length - 1 = k + ((y :: ys).length + 1) - 1 by omega]

private theorem setAlphas_long (refs : List ℕ) (k : ℕ) (hk : k ≤ 7) (h : 7 < k + refs.length) (heap : ℕ → Dict) :
    (setAlphas k refs heap).1 = .error .index := by
  induction refs generalizing k heap with
  | nil => simp at h; omega
  | cons r refs ih =>
    rw [setAlphas]
    have hl : alphaArr.length = 7 := rfl
    rcases hk.lt_or_eq with hk | hk
    · rw [List.getElem?_eq_getElem (by omega)]
      exact ih (k + 1) hk (by rw [List.length_cons] at h; omega) _
    · rw [List.getElem?_eq_none (by omega)]

private theorem setCenters_ok (ls : List Link) (k : ℕ) (hk : k + ls.length ≤ 7) :
    ∃ ls', setCenters k ls = .ok ls' ∧ ls' = (List.range ls.length).map fun i => { nth ls i with r := rArr.getD (k + i) 0 } := by
  induction ls generalizing k with
  | nil => exact ⟨_, rfl, rfl⟩
  | cons l ls ih =>
    rw [List.length_cons] at hk
    have hl : rArr.length = 7 := rfl
    obtain ⟨ls', h1, h2⟩ := ih (k + 1) (by omega)
    have hg : rArr[k]? = some (rArr.getD k 0) := by
      rw [List.getD_eq_getElem?_getD, List.getElem?_eq_getElem (show k < rArr.length by omega)]; rfl
    refine ⟨{ l with r := rArr.getD k 0 } :: ls', by rw [setCenters, hg, h1]; rfl, ?_⟩
    rw [List.length_cons, List.range_succ_eq_map, List.map_cons, List.map_map, h2]
    refine congrArg₂ _ rfl (List.map_congr_left fun i _ => ?_)
    simp only [Function.comp_apply, Nat.succ_eq_add_one]
    rw [show k + 1 + i = k + (i + 1) by omega]
    rfl

/-- The robot that results from the dictionaries: the angle between axes and the centre of mass are the ones of the function. -/
structure PandaLink (l : Link) (rd : Dict) (i : ℕ) (l' : Link) : Prop where
  theta : Chosen rd.theta l.theta l'.theta
  alpha : some l'.alpha = [0, -(Real.pi / 2), Real.pi / 2, Real.pi / 2, -(Real.pi / 2), Real.pi / 2, Real.pi / 2][i]?
  d : Chosen rd.d l.d l'.d
  a : Chosen rd.a l.a l'.a
  m : Chosen rd.m l.m l'.m
  I : Chosen rd.I l.I l'.I
  r : ∃ c, rArr[i]? = some c ∧ Chosen rd.r c l'.r
  mdh : l'.mdh = l.mdh
  revolute : l'.revolute = l.revolute

private theorem panda_core {panda : List Link} (h : Supported panda) (hp : panda.length = 7) (dicts : List Dict) (hd : dicts.length = 7)
    {q qd : ℕ → ℝ} {links' : List Link} {q' qd' : ℕ → ℝ} (hl : links'.length = 7)
    (hlink : ∀ i (hi : i < 7), PandaLink (nth panda i) (dicts.getD i {}) i (nth links' i))
    (halpha : ∀ i (hi : i < 7), (dicts.getD i {}).alpha = some (alphaArr.getD i 0))
    (hjoint : ∀ i < 7, Chosen (dicts.getD i {}).q (q i, qd i) (q' i, qd' i)) (u : ℕ → ℝ) :
    ∃ r, ((setCenters 0 panda).bind fun links => robotToSympyD false links dicts q qd u) = .ok r ∧ robotToSympy false links' q' qd' u = .ok r := by
  obtain ⟨ls, h1, h2⟩ := setCenters_ok panda 0 (by omega)
  have hlen : ls.length = 7 := by rw [h2]; simpa using hp
  have hget : ∀ i (hi : i < 7), ls[i]'(by omega) = { nth panda i with r := rArr.getD i 0 } := by
    intro i hi
    simp only [h2, List.getElem_map, List.getElem_range, Nat.zero_add]
  have hd' : ∀ i (hi : i < 7), dicts[i]'(by omega) = dicts.getD i {} := fun i hi => by
    rw [List.getD_eq_getElem?_getD, List.getElem?_eq_getElem (show i < dicts.length by omega)]; rfl
  have hl' : ∀ i (hi : i < 7), links'[i]'(by omega) = nth links' i := fun i hi => by
    simp [nth, List.getElem?_eq_getElem (show i < links'.length by omega)]
  have hs : Supported ls := by
    intro l hl
    obtain ⟨i, hi, rfl⟩ := List.mem_iff_getElem.1 hl
    have hi' : i < 7 := hlen ▸ hi
    rw [hget i hi']
    have : nth panda i ∈ panda := by
      simp only [nth, List.getD_eq_getElem?_getD, List.getElem?_eq_getElem (show i < panda.length by omega), Option.getD_some]
      exact List.getElem_mem _
    exact ⟨(h _ this).1, (h _ this).2⟩
  have hr : ReplacedAll ls dicts q qd links' q' qd' := by
    refine ⟨by omega, by omega, fun i hi => ?_, fun i hi => ?_⟩
    · have hi' : i < 7 := hlen ▸ hi
      obtain ⟨t1, t2, t3, t4, t5, t6, t7, t8, t9⟩ := hlink i hi'
      rw [hget i hi', hd' i hi', hl' i hi']
      refine ⟨t1, ⟨fun v hv => ?_, fun hn => ?_⟩, t3, t4, t5, t6, ?_, t8, t9⟩
      · rw [halpha i hi'] at hv
        cases hv
        have : alphaArr[i]? = some (nth links' i).alpha := t2.symm
        rw [List.getD_eq_getElem?_getD, this]; rfl
      · rw [halpha i hi'] at hn; cases hn
      · obtain ⟨c, hc, hc'⟩ := t7
        have e : rArr.getD i 0 = c := by rw [List.getD_eq_getElem?_getD, hc]; rfl
        rw [← e] at hc'
        exact hc'
    · have hi' : i < 7 := hlen ▸ hi
      rw [hd' i hi']
      exact hjoint i hi'
  obtain ⟨r, k1, k2⟩ := C160_replace hs hr u
  exact ⟨r, by rw [h1]; exact k1, k2⟩

/-- C160 for the Panda robot, without dictionaries: the angles between axes and the centres of mass are the ones of the function, and the rest is what the
toolbox gives. Missing from the full claim: see `C160_alpha_refuted`, `C160_caller_refuted` and `C160_shared_refuted`. -/
theorem C160_panda_default {panda : List Link} (h : Supported panda) (hp : panda.length = 7) (heap : ℕ → Dict) {q qd : ℕ → ℝ}
    {links' : List Link} (hl : links'.length = 7) (hlink : ∀ i < 7, PandaLink (nth panda i) {} i (nth links' i)) (u : ℕ → ℝ) :
    ∃ r, pandaSimp panda false none heap q qd u = (.ok r, heap) ∧ robotToSympy false links' q qd u = .ok r := by
  obtain ⟨heap', h1, -, h3, h4, -⟩ := setAlphas_ok (List.range 7) 0 (by simp) fun _ => {}
  have hg : ∀ i < 7, ((List.range 7).map heap').getD i {} = { alpha := some (alphaArr.getD i 0) } := by
    intro i hi
    have := h3 List.nodup_range i (by simpa using hi)
    rw [List.getElem_range, Nat.zero_add] at this
    simp [List.getD_eq_getElem?_getD, List.getElem?_range hi, this]
  obtain ⟨r, k1, k2⟩ := panda_core h hp ((List.range 7).map heap') (by simp) (q := q) (qd := qd) (q' := q) (qd' := qd) hl (fun i hi => by
      rw [hg i hi]
      obtain ⟨t1, t2, t3, t4, t5, t6, t7, t8, t9⟩ := hlink i hi
      exact ⟨t1, t2, t3, t4, t5, t6, t7, t8, t9⟩) (fun i hi => by rw [hg i hi])
    (fun i hi => by rw [hg i hi]; exact ⟨fun v hv => by simp at hv, fun _ => rfl⟩) u
  exact ⟨r, by simp only [pandaSimp, h1, Except.bind]; exact congrArg (·, heap) k1, k2⟩

/-- C160 for the Panda robot, with seven different dictionaries: all their values but the angles between axes take the place of those of the robot. -/
theorem C160_panda_partial {panda : List Link} (h : Supported panda) (hp : panda.length = 7) {refs : List ℕ} (hn : refs.Nodup) (hr : refs.length = 7)
    (heap : ℕ → Dict) {q qd : ℕ → ℝ} {links' : List Link} {q' qd' : ℕ → ℝ} (hl : links'.length = 7)
    (hlink : ∀ i (hi : i < 7), PandaLink (nth panda i) (heap (refs[i]'(by omega))) i (nth links' i))
    (hjoint : ∀ i (hi : i < 7), Chosen (heap (refs[i]'(by omega))).q (q i, qd i) (q' i, qd' i)) (u : ℕ → ℝ) :
    ∃ r, (pandaSimp panda false (some refs) heap q qd u).1 = .ok r ∧ robotToSympy false links' q' qd' u = .ok r := by
  obtain ⟨heap', h1, -, h3, h4, -⟩ := setAlphas_ok refs 0 (by omega) heap
  have hg : ∀ i (hi : i < 7), (refs.map heap').getD i {} = { heap (refs[i]'(by omega)) with alpha := some (alphaArr.getD i 0) } := by
    intro i hi
    have := h3 hn i (by omega)
    rw [Nat.zero_add] at this
    rw [List.getD_eq_getElem?_getD, List.getElem?_map, List.getElem?_eq_getElem (show i < refs.length by omega)]
    exact this
  obtain ⟨r, k1, k2⟩ := panda_core h hp (refs.map heap') (by simpa using hr) (q := q) (qd := qd) (q' := q') (qd' := qd') hl (fun i hi => by
      rw [hg i hi]
      obtain ⟨t1, t2, t3, t4, t5, t6, t7, t8, t9⟩ := hlink i hi
      exact ⟨t1, t2, t3, t4, t5, t6, t7, t8, t9⟩) (fun i hi => by rw [hg i hi])
    (fun i hi => by rw [hg i hi]; exact hjoint i hi) u
  exact ⟨r, by simp only [pandaSimp, h1, Except.bind]; exact k1, k2⟩

/-- C160: after a call with at most seven dictionaries, those of the caller have the same values but for an angle that was added or replaced, and other
dictionaries are as they were. -/
theorem C160_caller (panda : List Link) (e : Bool) {refs : List ℕ} (hr : refs.length ≤ 7) (heap : ℕ → Dict) (q qd u : ℕ → ℝ) :
    (∀ x ∉ refs, (pandaSimp panda e (some refs) heap q qd u).2 x = heap x) ∧
      ∀ x ∈ refs, ∃ a, (pandaSimp panda e (some refs) heap q qd u).2 x = { heap x with alpha := some a } := by
  obtain ⟨heap', h1, h2, -, h4, -⟩ := setAlphas_ok refs 0 (by omega) heap
  simp only [pandaSimp, h1]
  exact ⟨h2, h4⟩

/-- C160: a number of dictionaries other than seven raises an IndexError. -/
theorem C160_panda_number {panda : List Link} (h : Supported panda) (hp : panda.length = 7) {refs : List ℕ} (hr : refs.length ≠ 7) (heap : ℕ → Dict)
    (q qd u : ℕ → ℝ) : (pandaSimp panda false (some refs) heap q qd u).1 = .error .index := by
  rcases Nat.lt_or_gt_of_ne hr with hr | hr
  · obtain ⟨heap', h1, -⟩ := setAlphas_ok refs 0 (by omega) heap
    obtain ⟨ls, k1, k2⟩ := setCenters_ok panda 0 (by omega)
    simp only [pandaSimp, h1, k1, Except.bind]
    refine C160_short ?_ ?_ q qd u
    · intro l hl
      rw [k2, List.mem_map] at hl
      obtain ⟨i, hi, rfl⟩ := hl
      rw [List.mem_range] at hi
      have : nth panda i ∈ panda := by
        simp only [nth, List.getD_eq_getElem?_getD, List.getElem?_eq_getElem hi, Option.getD_some]
        exact List.getElem_mem _
      exact ⟨(h _ this).1, (h _ this).2⟩
    · rw [k2]
      simpa [hp] using hr
  · have := setAlphas_long refs 0 (by omega) (by omega) heap
    simp only [pandaSimp, this, Except.bind]

/-- C160 is false of angles between axes given for the Panda robot: they are not used. -/
theorem C160_alpha_refuted : ¬∀ (panda : List Link), Supported panda → panda.length = 7 → ∀ (refs : List ℕ), refs.Nodup → refs.length = 7 →
    ∀ (heap : ℕ → Dict) (q qd u : ℕ → ℝ) (r : Chain × List (ℕ × V3)), (pandaSimp panda false (some refs) heap q qd u).1 = .ok r →
    ∀ (i : ℕ) (b : Body) (x : ℝ), refs[i]? = some 0 → i = 0 → r.1.bodies[i]? = some b → (heap 0).alpha = some x → (heap 0).theta = some 0 → q 0 = 0 →
      (heap 0).q = none → axisZ b.frame = ![0, -Real.sin x, Real.cos x] := by
  intro hc
  obtain ⟨panda, hpd⟩ : ∃ panda : List Link, panda = List.replicate 7 ⟨0, 0, 0, 0, 1, 1, 0, true, true⟩ := ⟨_, rfl⟩
  have hs : Supported panda := fun l hl => by rw [hpd] at hl; rw [List.eq_of_mem_replicate hl]; simp
  have hp : panda.length = 7 := by rw [hpd]; simp
  obtain ⟨heap, hh⟩ : ∃ heap : ℕ → Dict, heap = fun _ => { theta := some 0, alpha := some Real.pi } := ⟨_, rfl⟩
  obtain ⟨links', hl'⟩ : ∃ links' : List Link, links' = (List.range 7).map fun i => ⟨0, alphaArr.getD i 0, 0, 0, 1, 1, rArr.getD i 0, true, true⟩ := ⟨_, rfl⟩
  have hlink : ∀ i (hi : i < 7), PandaLink (nth panda i) (heap ((List.range 7)[i]'(by simpa using hi))) i (nth links' i) := by
    intro i hi
    have e1 : nth panda i = ⟨0, 0, 0, 0, 1, 1, 0, true, true⟩ := by
      simp only [nth, hpd, List.getD_eq_getElem?_getD, List.getElem?_replicate, hi, if_true, Option.getD_some]
    have e2 : nth links' i = ⟨0, alphaArr.getD i 0, 0, 0, 1, 1, rArr.getD i 0, true, true⟩ := by
      simp [nth, hl', List.getElem?_range hi]
    have ha : i < alphaArr.length := hi
    have hra : i < rArr.length := hi
    rw [e1, e2, hh]
    refine ⟨by simp [Chosen], ?_, by simp [Chosen], by simp [Chosen], by simp [Chosen], by simp [Chosen], ⟨rArr[i], List.getElem?_eq_getElem hra, ?_⟩, rfl, rfl⟩
    · show some (alphaArr.getD i 0) = alphaArr[i]?
      rw [List.getD_eq_getElem?_getD, List.getElem?_eq_getElem ha]; rfl
    · simp [Chosen, List.getD_eq_getElem?_getD, List.getElem?_eq_getElem hra]
  obtain ⟨r, h1, h2⟩ := C160_panda_partial hs hp List.nodup_range (by simp) heap (q := 0) (qd := 0) (q' := 0) (qd' := 0) (links' := links') (by simp [hl']) hlink
    (fun i hi => by simp [Chosen, hh]) 0
  have hs' : Supported links' := fun l hl => by
    rw [hl', List.mem_map] at hl
    obtain ⟨i, -, rfl⟩ := hl
    exact ⟨rfl, rfl⟩
  obtain ⟨-, hb⟩ := C98_pose hs' 0 0 0 h2
  obtain ⟨b, hb1, hb2, -⟩ := hb 0 (by simp [hl'])
  have := hc panda hs hp (List.range 7) List.nodup_range (by simp) heap 0 0 0 r h1 0 b Real.pi (by simp) rfl hb1 (by simp [hh]) (by simp [hh]) rfl (by simp [hh])
  have e0 : nth links' 0 = ⟨0, 0, 0, 0, 1, 1, rArr.getD 0 0, true, true⟩ := by
    simp [nth, hl', alphaArr, List.range_succ_eq_map]
  have := congrFun this 2
  rw [hb2] at this
  simp [axisZ, poseR, mdhRot, e0] at this
  norm_num at this

/-- C160 is false of the dictionaries of the caller, which are changed. -/
theorem C160_caller_refuted : ¬∀ (panda : List Link) (refs : List ℕ) (heap : ℕ → Dict) (q qd u : ℕ → ℝ) (x : ℕ),
    (pandaSimp panda false (some refs) heap q qd u).2 x = heap x := by
  intro hc
  obtain ⟨-, h⟩ := C160_caller [] false (refs := [0]) (by simp) (fun _ => {}) 0 0 0
  obtain ⟨a, ha⟩ := h 0 (by simp)
  rw [hc] at ha
  have := congrArg Dict.alpha ha
  simp at this

/-- C160: when the same dictionary is given seven times, all links have the angle of the last one. -/
theorem C160_shared_refuted {panda : List Link} (h : Supported panda) (hp : panda.length = 7) (q qd u : ℕ → ℝ) :
    ∃ r links', (pandaSimp panda false (some (List.replicate 7 0)) (fun _ => {}) q qd u).1 = .ok r ∧ robotToSympy false links' q qd u = .ok r ∧
      links'.length = 7 ∧ ∀ i < 7, (nth links' i).alpha = Real.pi / 2 := by
  obtain ⟨heap', h1, -, -, -, h5⟩ := setAlphas_ok (List.replicate 7 0) 0 (by simp) fun _ => {}
  have e0 : heap' 0 = { alpha := some (Real.pi / 2) } := by
    have := h5 0 (by simp [List.getLast?_replicate])
    simpa [alphaArr] using this
  obtain ⟨ls, k1, k2⟩ := setCenters_ok panda 0 (by omega)
  have hlen : ls.length = 7 := by rw [k2]; simpa using hp
  have hs : Supported ls := by
    intro l hl
    rw [k2, List.mem_map] at hl
    obtain ⟨i, hi, rfl⟩ := hl
    rw [List.mem_range] at hi
    have : nth panda i ∈ panda := by
      simp only [nth, List.getD_eq_getElem?_getD, List.getElem?_eq_getElem hi, Option.getD_some]
      exact List.getElem_mem _
    exact ⟨(h _ this).1, (h _ this).2⟩
  have hr : ReplacedAll ls ((List.replicate 7 0).map heap') q qd (ls.map fun l => readLink l { alpha := some (Real.pi / 2) }) q qd := by
    refine ⟨by simp, by simp [hlen], fun i hi => ?_, fun i hi => ?_⟩
    · simp only [List.getElem_map, List.getElem_replicate, e0]
      exact replaced_readLink _ _
    · simp only [List.getElem_map, List.getElem_replicate, e0]
      exact ⟨fun v hv => by simp at hv, fun _ => rfl⟩
  obtain ⟨r, t1, t2⟩ := C160_replace hs hr u
  refine ⟨r, _, ?_, t2, by simpa using hlen, fun i hi => ?_⟩
  · simp only [pandaSimp, h1, k1, Except.bind]
    exact t1
  · have hi' : i < ls.length := by omega
    simp [nth, List.getElem?_eq_getElem hi', readLink, search]

/-- A pendulum whose mass is given and whose length is its own. -/
example : ∃ r, robotToSympyD false [⟨0, 0, 0, 0, 1, 1, ![1, 0, 0], true, true⟩] [{ m := some 3 }] 0 0 0 = .ok r ∧
    ∃ b, r.1.bodies[0]? = some b ∧ b.mass = 3 ∧ b.cm = ![1, 0, 0] := by
  have hs : Supported [⟨0, 0, 0, 0, 1, 1, ![1, 0, 0], true, true⟩] := fun l hl => by simp at hl; simp [hl]
  obtain ⟨r, h1, -, h3⟩ := C160_pose hs (dicts := [{ m := some 3 }]) (q := 0) (qd := 0) (links' := [⟨0, 0, 0, 0, 3, 1, ![1, 0, 0], true, true⟩]) (q' := 0) (qd' := 0)
    ⟨rfl, by simp, fun i hi => by
      obtain rfl : i = 0 := by simpa using hi
      exact ⟨by simp [Chosen], by simp [Chosen], by simp [Chosen], by simp [Chosen], by simp [Chosen], by simp [Chosen], by simp [Chosen], rfl, rfl⟩,
      fun i hi => by
      obtain rfl : i = 0 := by simpa using hi
      simp [Chosen]⟩ 0
  obtain ⟨b, hb, hf, hp, hc, hm, -⟩ := h3 0 (by simp)
  refine ⟨r, h1, b, hb, by simpa [nth] using hm, ?_⟩
  rw [hc]
  funext i
  fin_cases i <;> simp [poseP, poseR, mdhPos, mdhRot, nth]

/-- Seven equal links, for the theorems on `Panda_Simp`: with seven dictionaries of which the first has another mass it returns, and with six it does not. -/
example (q qd u : ℕ → ℝ) : ∃ panda : List Link, Supported panda ∧ panda.length = 7 ∧
    (∃ r, (pandaSimp panda false (some (List.range 7)) (fun k => if k = 0 then { m := some 3 } else {}) q qd u).1 = .ok r) ∧
    (pandaSimp panda false (some (List.range 6)) (fun _ => {}) q qd u).1 = .error .index ∧
    robotToSympyD false panda [] q qd u = .error .index := by
  obtain ⟨panda, hp⟩ : ∃ panda : List Link, panda = List.replicate 7 ⟨0, 0, 0, 0, 1, 1, ![1, 0, 0], true, true⟩ := ⟨_, rfl⟩
  have hs : Supported panda := fun l hl => by rw [hp] at hl; simp at hl; simp [hl]
  have hl : panda.length = 7 := by simp [hp]
  refine ⟨panda, hs, hl, ?_, C160_panda_number hs hl (by simp) _ q qd u, C160_short hs (by simp [hl]) q qd u⟩
  have e1 : ∀ i < 7, nth panda i = ⟨0, 0, 0, 0, 1, 1, ![1, 0, 0], true, true⟩ := fun i hi => by
    rw [nth, List.getD_eq_getElem?_getD, hp, List.getElem?_replicate, if_pos hi, Option.getD_some]
  obtain ⟨links', hl'⟩ : ∃ l, l = (List.range 7).map fun i => (⟨0, alphaArr.getD i 0, 0, 0, if i = 0 then 3 else 1, 1, rArr.getD i 0, true, true⟩ : Link) := ⟨_, rfl⟩
  have e2 : ∀ i < 7, nth links' i = ⟨0, alphaArr.getD i 0, 0, 0, if i = 0 then 3 else 1, 1, rArr.getD i 0, true, true⟩ := fun i hi => by
    simp [hl', nth, List.getD_eq_getElem?_getD, List.getElem?_range hi]
  have e3 : ∀ i < 7, PandaLink (nth panda i) (if i = 0 then { m := some 3 } else {}) i (nth links' i) := fun i hi => by
    rw [e1 i hi, e2 i hi]
    interval_cases i <;> constructor <;> simp [Chosen, alphaArr, rArr]
  have e4 : ∀ i < 7, Chosen (if i = 0 then ({ m := some 3 } : Dict) else {}).q (q i, qd i) (q i, qd i) := fun i hi => by
    have : (if i = 0 then ({ m := some 3 } : Dict) else {}).q = none := by split_ifs <;> rfl
    rw [this]
    exact ⟨fun v hv => by simp at hv, fun _ => rfl⟩
  obtain ⟨r, h, -⟩ := C160_panda_partial hs hl (refs := List.range 7) List.nodup_range (by simp) (fun k => if k = 0 then { m := some 3 } else {}) (q := q) (qd := qd)
    (links' := links') (q' := q) (qd' := qd) (by simp [hl']) (by simpa using e3) (by simpa using e4) u
  exact ⟨r, h⟩

end Chords.Props
