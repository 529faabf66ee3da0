import Verif.Model.Labels
import Verif.Model.Problem
import Std.Data.String.ToNat

/-! # Labels of schemes in plots: C145 -/

namespace Chords.Props
open Labels

/-! ## Specification -/

/-- The names of schemes that have a label. -/
def labelled : List Str :=
  ["hs", "hs_mod", "hs_parab", "hs_mod_parab", "trapz", "trapz_mod", "hsj", "hsj_parab", "hsj_parab_mod", "rk4", "hsn", "hsn_parab", "trapz_n", "LG", "LG2", "LGL",
   "LGR", "LGR_inv", "JG", "JGR", "JGR_inv", "JGL", "CG", "CG_inv", "CGL", "CGR", "CGR_inv"].map String.toList

/-- The names with the prefixes of each family of problems. -/
def accepted : List Str :=
  ["", "ph_"].flatMap fun p => ["", "BU_", "TD_"].flatMap fun b => labelled.map fun k => p.toList ++ (b.toList ++ k)

/-- The schemes that problems accept, with the prefix of adaptive problems or without it. -/
def offered : List String :=
  (Problem.equispaced ++ Points.implemented ++ Problem.topDown ++ Problem.bottomUp).flatMap fun s => [s, "ph_" ++ s]

/-- The schemes of `offered` that cannot be plotted. -/
def unplottable : List String :=
  ["euler", "LG_inv", "JG_inv", "JG2", "CG2", "LGLm", "D2"].flatMap fun s => [s, "ph_" ++ s]

/-! ## Proofs -/

theorem take3_eq {p s : Str} (h : s.take 3 = p) : s = p ++ s.drop 3 := by
  rw [← h, List.take_append_drop]

theorem lookup_mem {α : Type} {d : List (Str × α)} {k : Str} {v : α} (h : Labels.lookup d k = .ok v) : (k, v) ∈ d := by
  unfold Labels.lookup at h
  split at h
  · next p hp =>
    cases h
    have h1 := List.find?_some hp
    have h2 := List.mem_of_find?_eq_some hp
    rw [decide_eq_true_eq] at h1
    rw [← h1]
    exact List.mem_reverse.1 h2
  · cases h

private theorem map_ok {f : Str → Str} {e : Except LErr Str} {l : Str} (h : e.map f = .ok l) : ∃ v, e = .ok v := by
  cases e with
  | error _ => cases h
  | ok v => exact ⟨v, rfl⟩

private theorem family_mem {d : List (Str × Str)} {bu td s l : Str} (hd : d.map Prod.fst ⊆ labelled) (h : withFamily d bu td s = .ok l) :
    ∃ b ∈ ["", "BU_", "TD_"], ∃ k ∈ labelled, b.toList ++ k = s := by
  have key : ∀ {k v}, Labels.lookup d k = .ok v → k ∈ labelled := fun h => hd (List.mem_map.2 ⟨_, lookup_mem h, rfl⟩)
  unfold withFamily at h
  split_ifs at h with h1 h2
  · obtain ⟨v, hv⟩ := map_ok h
    exact ⟨"BU_", by simp, _, key hv, (take3_eq h1).symm⟩
  · obtain ⟨v, hv⟩ := map_ok h
    exact ⟨"TD_", by simp, _, key hv, (take3_eq h2).symm⟩
  · exact ⟨"", by simp, _, key h, rfl⟩

private theorem prefixes_mem {d : List (Str × Str)} {bu td ph s l : Str} (hd : d.map Prod.fst ⊆ labelled) (h : withPrefixes d bu td ph s = .ok l) :
    s ∈ accepted := by
  unfold withPrefixes at h
  split_ifs at h with hp
  · obtain ⟨v, hv⟩ := map_ok h
    obtain ⟨b, hb, k, hk, e⟩ := family_mem hd hv
    refine List.mem_flatMap.2 ⟨"ph_", by simp, List.mem_flatMap.2 ⟨b, hb, List.mem_map.2 ⟨k, hk, ?_⟩⟩⟩
    rw [e]
    exact (take3_eq hp).symm
  · obtain ⟨b, hb, k, hk, e⟩ := family_mem hd h
    exact List.mem_flatMap.2 ⟨"", by simp, List.mem_flatMap.2 ⟨b, hb, List.mem_map.2 ⟨k, hk, e⟩⟩⟩

private theorem accepted_short : ∀ s ∈ accepted, (schToLab s).toOption.isSome := by decide +kernel
private theorem accepted_long : ∀ s ∈ accepted, (schToLongLabel s).toOption.isSome := by decide +kernel
private theorem nodup_short : (accepted.map fun s => (schToLab s).toOption).Nodup := by decide +kernel
private theorem nodup_long : (accepted.map fun s => (schToLongLabel s).toOption).Nodup := by decide +kernel
private theorem keys_short : labelDict.map Prod.fst ⊆ labelled := by decide +kernel
private theorem keys_long : lnameDict.map Prod.fst ⊆ labelled := by decide +kernel

private theorem isSome_ok {α : Type} {e : Except LErr α} (h : e.toOption.isSome) : ∃ l, e = .ok l := by
  cases e with
  | error _ => cases h
  | ok v => exact ⟨v, rfl⟩

/-- C145: which strings have a label: for all strings, both functions return exactly on these names. -/
theorem C145_accepted (s : Str) : ((∃ l, schToLab s = .ok l) ↔ s ∈ accepted) ∧ ((∃ l, schToLongLabel s = .ok l) ↔ s ∈ accepted) :=
  ⟨⟨fun ⟨_, h⟩ => prefixes_mem keys_short h, fun h => isSome_ok (accepted_short s h)⟩, ⟨fun ⟨_, h⟩ => prefixes_mem keys_long h, fun h => isSome_ok (accepted_long s h)⟩⟩

/-- C145: different schemes have different labels, for all strings. -/
theorem C145_injective {s s' l : Str} : (schToLab s = .ok l → schToLab s' = .ok l → s = s') ∧ (schToLongLabel s = .ok l → schToLongLabel s' = .ok l → s = s') := by
  constructor
  · intro h h'
    refine List.inj_on_of_nodup_map nodup_short ((C145_accepted s).1.1 ⟨l, h⟩) ((C145_accepted s').1.1 ⟨l, h'⟩) ?_
    rw [h, h']
  · intro h h'
    refine List.inj_on_of_nodup_map nodup_long ((C145_accepted s).2.1 ⟨l, h⟩) ((C145_accepted s').2.1 ⟨l, h'⟩) ?_
    rw [h, h']

private theorem toDigits_inj {m n : ℕ} (h : Nat.toDigits 10 m = Nat.toDigits 10 n) : m = n := by
  refine Nat.repr_injective ?_
  rw [Nat.repr, Nat.repr, h]

private theorem digit_ne {m : ℕ} {c : Char} (h : c ∈ Nat.toDigits 10 m) : c ≠ '-' ∧ c ≠ ' ' := by
  have := Nat.isDigit_of_mem_toDigits (by omega) (by omega) h
  constructor
  · rintro rfl
    revert this
    decide
  · rintro rfl
    revert this
    decide

private theorem decimal_inj {m n : ℤ} (h : decimal m = decimal n) : m = n := by
  have hd : ∀ {a b : ℕ}, '-' :: Nat.toDigits 10 a ≠ Nat.toDigits 10 b := fun {a b} h => (digit_ne (h ▸ List.mem_cons_self)).1 rfl
  cases m with
  | ofNat m =>
    cases n with
    | ofNat n => rw [toDigits_inj h]
    | negSucc n => exact absurd h.symm hd
  | negSucc m =>
    cases n with
    | ofNat n => exact absurd h hd
    | negSucc n =>
      simp only [decimal, List.cons.injEq, true_and] at h
      have := toDigits_inj h
      rw [show m = n by omega]

private theorem decimal_space (n : ℤ) : ' ' ∉ decimal n := by
  cases n with
  | ofNat m => exact fun h => (digit_ne h).2 rfl
  | negSucc m =>
    intro h
    rcases List.mem_cons.1 h with h | h
    · cases h
    · exact (digit_ne h).2 rfl

/-- The last word. -/
private def lastWord (s : Str) : Str := (s.reverse.takeWhile (· ≠ ' ')).reverse

private theorem lastWord_append {a b : Str} (h : ' ' ∉ b) : lastWord (a ++ ' ' :: b) = b := by
  rw [lastWord, List.reverse_append, List.reverse_cons, List.append_assoc, List.takeWhile_append_of_pos]
  · simp
  · intro c hc
    simp only [ne_eq, decide_not, Bool.not_eq_eq_eq_not, Bool.not_true, decide_eq_false_iff_not]
    rintro rfl
    exact h (List.mem_reverse.1 hc)

private theorem order_inj {a b : Str} {m n : ℤ} (h : a ++ " order ".toList ++ decimal m = b ++ " order ".toList ++ decimal n) : a = b ∧ m = n := by
  have e : ∀ (a : Str) (n : ℤ), a ++ " order ".toList ++ decimal n = (a ++ " order".toList) ++ ' ' :: decimal n := fun a n => by simp
  have h1 : decimal m = decimal n := by
    have := congrArg lastWord h
    rwa [e, e, lastWord_append (decimal_space m), lastWord_append (decimal_space n)] at this
  refine ⟨?_, decimal_inj h1⟩
  rw [h1] at h
  exact List.append_cancel_right (List.append_cancel_right h)

/-- The label ends with an order. -/
private abbrev Ordered (l : Str) : Prop := " order".toList <:+ l.take (l.length - (lastWord l).length - 1) ∧ ∀ c ∈ lastWord l, c = '-' ∨ c.isDigit = true

private theorem plain_short : ∀ s ∈ accepted, ∀ l ∈ (schToLab s).toOption, ¬Ordered l := by decide +kernel
private theorem plain_long : ∀ s ∈ accepted, ∀ l ∈ (schToLongLabel s).toOption, ¬Ordered l := by
  decide +kernel

private theorem plain_ne {l b : Str} {n : ℤ} (h : ¬Ordered l) : l ≠ b ++ " order ".toList ++ decimal n := by
  rintro rfl
  have e : b ++ " order ".toList ++ decimal n = (b ++ " order".toList) ++ ' ' :: decimal n := by simp
  rw [e] at h
  refine h ⟨⟨b, ?_⟩, ?_⟩
  · rw [lastWord_append (decimal_space n), List.take_left' (by simp; omega)]
  · rw [lastWord_append (decimal_space n)]
    intro c hc
    cases n with
    | ofNat m => exact .inr (Nat.isDigit_of_mem_toDigits (by omega) (by omega) hc)
    | negSucc m =>
      rcases List.mem_cons.1 hc with h | h
      · exact .inl h
      · exact .inr (Nat.isDigit_of_mem_toDigits (by omega) (by omega) h)

private theorem kwargs_label {s : Str} {ll cp : Bool} {o : Option ℤ} {k : Kwargs} (h : schemeKwargs s ll cp o = .ok k) :
    ∃ l, (if ll then schToLongLabel s else schToLab s) = .ok l ∧ k.label = (match o with
      | none => l
      | some n => l ++ " order ".toList ++ decimal n) := by
  simp only [schemeKwargs, bind, Except.bind, pure, Except.pure] at h
  cases e : schToColor s with
  | error _ => rw [e] at h; cases h
  | ok c =>
    rw [e] at h
    dsimp only at h
    cases ll with
    | true =>
      rw [if_pos rfl] at h ⊢
      cases e' : schToLongLabel s with
      | error _ => rw [e'] at h; cases h
      | ok l =>
        rw [e'] at h
        cases o with
        | none => cases h; exact ⟨l, rfl, rfl⟩
        | some n => cases h; exact ⟨l, rfl, rfl⟩
    | false =>
      rw [if_neg (by simp)] at h ⊢
      cases e' : schToLab s with
      | error _ => rw [e'] at h; cases h
      | ok l =>
        rw [e'] at h
        cases o with
        | none => cases h; exact ⟨l, rfl, rfl⟩
        | some n => cases h; exact ⟨l, rfl, rfl⟩

/-- C145: the label of a line tells the scheme and the order, for all strings and all orders. -/
theorem C145_kwargs {s s' : Str} {ll cp cp' : Bool} {o o' : Option ℤ} {k k' : Kwargs} (h : schemeKwargs s ll cp o = .ok k) (h' : schemeKwargs s' ll cp' o' = .ok k')
    (hl : k.label = k'.label) : s = s' ∧ o = o' := by
  obtain ⟨l, h1, h2⟩ := kwargs_label h
  obtain ⟨l', h1', h2'⟩ := kwargs_label h'
  have hp : ∀ {s l}, (if ll then schToLongLabel s else schToLab s) = .ok l → ¬Ordered l := by
    intro s l h
    cases ll with
    | true => exact plain_long s ((C145_accepted s).2.1 ⟨l, h⟩) l (by rw [show schToLongLabel s = .ok l from h]; rfl)
    | false => exact plain_short s ((C145_accepted s).1.1 ⟨l, h⟩) l (by rw [show schToLab s = .ok l from h]; rfl)
  have key : l = l' ∧ o = o' := by
    rw [h2, h2'] at hl
    cases o with
    | none =>
      cases o' with
      | none => exact ⟨hl, rfl⟩
      | some n => exact absurd hl (plain_ne (hp h1))
    | some m =>
      cases o' with
      | none => exact absurd hl.symm (plain_ne (hp h1'))
      | some n =>
        obtain ⟨e1, e2⟩ := order_inj hl
        exact ⟨e1, by rw [e2]⟩
  obtain ⟨rfl, rfl⟩ := key
  refine ⟨?_, rfl⟩
  cases ll with
  | true => exact C145_injective.2 h1 h1'
  | false => exact C145_injective.1 h1 h1'

private theorem kwargs_color {s : Str} {ll cp : Bool} {o : Option ℤ} {k : Kwargs} (h : schemeKwargs s ll cp o = .ok k) :
    schToColor s = .ok k.c ∧ k.ls = (match o with
      | none => if cp then "-".toList else if Labels.contains "hs".toList s ∧ ¬Labels.contains "parab".toList s then "--".toList else "-".toList
      | some n => if n = 1 then "-".toList else if n = 2 then ":".toList else "--".toList) := by
  simp only [schemeKwargs, bind, Except.bind, pure, Except.pure] at h
  cases e : schToColor s with
  | error _ => rw [e] at h; cases h
  | ok c =>
    rw [e] at h
    dsimp only at h
    cases ll with
    | true =>
      rw [if_pos rfl] at h
      cases e' : schToLongLabel s with
      | error _ => rw [e'] at h; cases h
      | ok l =>
        rw [e'] at h
        cases o with
        | none => cases h; exact ⟨rfl, rfl⟩
        | some n => cases h; exact ⟨rfl, rfl⟩
    | false =>
      rw [if_neg (by simp)] at h
      cases e' : schToLab s with
      | error _ => rw [e'] at h; cases h
      | ok l =>
        rw [e'] at h
        cases o with
        | none => cases h; exact ⟨rfl, rfl⟩
        | some n => cases h; exact ⟨rfl, rfl⟩

private theorem kwargs_ok (s : Str) (ll cp : Bool) (o : Option ℤ) :
    (∃ k, schemeKwargs s ll cp o = .ok k) ↔ s ∈ accepted ∧ (schToColor s).toOption.isSome := by
  constructor
  · rintro ⟨k, h⟩
    obtain ⟨l, h1, -⟩ := kwargs_label h
    constructor
    · cases ll with
      | true => exact (C145_accepted s).2.1 ⟨l, h1⟩
      | false => exact (C145_accepted s).1.1 ⟨l, h1⟩
    · rw [(kwargs_color h).1]
      rfl
  · rintro ⟨h1, h2⟩
    obtain ⟨c, hc⟩ := isSome_ok h2
    simp only [schemeKwargs, bind, Except.bind, pure, Except.pure, hc]
    cases ll with
    | true =>
      obtain ⟨l, hl⟩ := (C145_accepted s).2.2 h1
      rw [if_pos rfl, hl]
      cases o <;> exact ⟨_, rfl⟩
    | false =>
      obtain ⟨l, hl⟩ := (C145_accepted s).1.2 h1
      rw [if_neg (by simp), hl]
      cases o <;> exact ⟨_, rfl⟩

private theorem offered_ok : ∀ s ∈ offered, (s.toList ∈ accepted ∧ (schToColor s.toList).toOption.isSome) ↔ s ∉ unplottable := by decide +kernel

/-- C145: which of the schemes that problems accept can be plotted. -/
theorem C145_offered (ll cp : Bool) (o : Option ℤ) : ∀ s ∈ offered, (∃ k, schemeKwargs s.toList ll cp o = .ok k) ↔ s ∉ unplottable :=
  fun s hs => (kwargs_ok _ ll cp o).trans (offered_ok s hs)

/-- The positions of the colours of maps are those where maps change. -/
private def inMap : Color → Bool
  | .cycle _ => true
  | .cmap _ x => decide (0 ≤ x ∧ x ≤ 1)

private theorem colors_range : ∀ e ∈ colorDict, inMap e.2 = true := by decide +kernel

/-- The pseudospectral schemes of the two families, with their prefixes. -/
def families : List Str := (["BU_", "TD_"].flatMap fun p => ["LG", "LGL", "LGR", "JG", "JGR", "JGL", "CG", "CGL", "CGR", "LG2"].map fun s => p ++ s).map String.toList

private theorem colors_family : ∀ s ∈ families, ∀ s' ∈ families, schToColor s = schToColor s' →
    s = s' ∨ (s = "BU_LGR".toList ∧ s' = "TD_LG2".toList) ∨ (s = "TD_LG2".toList ∧ s' = "BU_LGR".toList) := by decide +kernel

/-- C145: the colours taken from a map are at a position between 0 and 1, where maps change, for all strings; and two schemes of the families `BU` and `TD`
have different colours, except the two of `C145_family_refuted`. -/
theorem C145_maps : (∀ s name x, schToColor s = .ok (.cmap name x) → 0 ≤ x ∧ x ≤ 1) ∧
    ∀ s ∈ families, ∀ s' ∈ families, schToColor s = schToColor s' →
      s = s' ∨ (s = "BU_LGR".toList ∧ s' = "TD_LG2".toList) ∨ (s = "TD_LG2".toList ∧ s' = "BU_LGR".toList) := by
  refine ⟨fun s name x h => ?_, colors_family⟩
  rw [schToColor] at h
  rw [lookup] at h
  split at h
  · rename_i p hp
    have hm := List.mem_reverse.1 (List.mem_of_find?_eq_some hp)
    have h1 := colors_range p hm
    rw [Except.ok.inj h] at h1
    simpa [inMap] using h1
  · cases h

/-- C145 is false of these two schemes: `BU_LGR` and `TD_LG2` have the same colour. -/
theorem C145_family_refuted : schToColor "BU_LGR".toList = .ok (.cmap "gnuplot2" (1 / 5)) ∧ schToColor "TD_LG2".toList = .ok (.cmap "gnuplot2" (1 / 5)) := by
  decide +kernel

/-- C145 is false of some schemes of problems: they have no label. -/
theorem C145_refuted : ∃ s ∈ Problem.equispaced ++ Points.implemented, ∀ ll cp o k, schemeKwargs s.toList ll cp o ≠ .ok k :=
  ⟨"LG_inv", by decide, fun ll cp o k h => (C145_offered ll cp o "LG_inv" (by decide +kernel)).1 ⟨k, h⟩ (by decide +kernel)⟩

/-- The colour and the style of lines do not tell schemes apart: without the label the lines are equal. -/
theorem C145_color_refuted : ∃ s ∈ offered, ∃ s' ∈ offered, s ≠ s' ∧ ∀ ll cp o, ∃ k k', schemeKwargs s.toList ll cp o = .ok k ∧
    schemeKwargs s'.toList ll cp o = .ok k' ∧ k.c = k'.c ∧ k.ls = k'.ls := by
  refine ⟨"LG", by decide +kernel, "hsj_parab", by decide +kernel, by decide, fun ll cp o => ?_⟩
  obtain ⟨k, hk⟩ := (C145_offered ll cp o "LG" (by decide +kernel)).2 (by decide +kernel)
  obtain ⟨k', hk'⟩ := (C145_offered ll cp o "hsj_parab" (by decide +kernel)).2 (by decide +kernel)
  refine ⟨k, k', hk, hk', ?_, ?_⟩
  · have h : schToColor "LG".toList = schToColor "hsj_parab".toList := by decide +kernel
    have := (kwargs_color hk).1.symm.trans (h.trans (kwargs_color hk').1)
    exact Except.ok.inj this
  · rw [(kwargs_color hk).2, (kwargs_color hk').2]
    have h1 : Labels.contains "hs".toList "LG".toList = false := by decide +kernel
    have h2 : Labels.contains "parab".toList "hsj_parab".toList = true := by decide +kernel
    rw [h1, h2]
    cases o <;> simp

/-- An adaptive scheme and its labels. -/
example : schToLab "ph_BU_CGL".toList = .ok "adaptive Cheb-L D-A".toList ∧ schToLongLabel "ph_BU_CGL".toList = .ok "ph adaptive Chebyshev-Lobato integrative".toList := by
  decide +kernel

end Chords.Props
