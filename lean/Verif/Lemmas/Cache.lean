import Verif.Model.Cache
import Mathlib.Data.List.Nodup

namespace Chords.Cache
open Spec
variable {V : Type} [PyVal V]

/-! ## Argument binding -/

/-- Value each parameter of a plain signature receives. -/
def vals : List (Param V) → List V → List (String × V) → List V
  | [], _, _ => []
  | p :: ps, args, kws =>
    (findKw p.name kws).getD (args.head?.getD (defaultArg p)) :: vals ps args.tail kws

theorem vals_length (ps : List (Param V)) (args : List V) (kws : List (String × V)) :
    (vals ps args kws).length = ps.length := by
  induction ps generalizing args with
  | nil => rfl
  | cons p ps ih => simp [vals, ih]

omit [PyVal V] in
theorem findKw_eraseKw_ne {n m : String} (h : n ≠ m) (kws : List (String × V)) :
    findKw n (eraseKw m kws) = findKw n kws := by
  induction kws with
  | nil => rfl
  | cons kv kws ih =>
    obtain ⟨k, v⟩ := kv
    by_cases hk : k = m
    · subst hk
      have : findKw n ((k, v) :: kws) = findKw n kws := by simp [findKw, Ne.symm h]
      rw [this, ← ih]
      simp [eraseKw]
    · have : eraseKw m ((k, v) :: kws) = (k, v) :: eraseKw m kws := by simp [eraseKw, hk]
      rw [this]
      simp [findKw, ih]

theorem vals_eraseKw (ps : List (Param V)) (args : List V) (kws : List (String × V)) (m : String)
    (h : m ∉ ps.map (·.name)) : vals ps args (eraseKw m kws) = vals ps args kws := by
  induction ps generalizing args with
  | nil => rfl
  | cons p ps ih =>
    simp only [List.map_cons, List.mem_cons, not_or] at h
    simp only [vals, findKw_eraseKw_ne (Ne.symm h.1), ih _ h.2]

theorem bind_names (ps : List (Param V)) (hp : Plain ps) (args : List V)
    (kws : List (String × V)) (env) (h : pyBind ps args kws = some env) (n : String) (v : V)
    (hn : findKw n kws = some v) : n ∈ ps.map (·.name) := by
  induction ps generalizing args kws env with
  | nil =>
    simp only [pyBind] at h
    split at h
    · rename_i hh
      have : kws = [] := by simpa using hh.2
      subst this
      simp [findKw] at hn
    · simp at h
  | cons p ps ih =>
    have hps : Plain ps := fun q hq => hp q (List.mem_cons_of_mem _ hq)
    have er : ∀ a e, pyBind ps a (eraseKw p.name kws) = some e → n ∈ (p :: ps).map (·.name) := by
      intro a e he
      by_cases hnp : n = p.name
      · simp [hnp]
      · have := ih hps a (eraseKw p.name kws) e he (by rw [findKw_eraseKw_ne hnp, hn])
        exact List.mem_cons_of_mem _ this
    have st : ∀ a e, pyBind ps a kws = some e → n ∈ (p :: ps).map (·.name) :=
      fun a e he => List.mem_cons_of_mem _ (ih hps a kws e he hn)
    rcases hp p (List.mem_cons_self ..) with hk | hk | hk
    · cases args with
      | nil =>
        simp only [pyBind, hk] at h
        split at h
        · simp only [Option.map_eq_some_iff] at h
          obtain ⟨e, he, _⟩ := h
          exact st _ _ he
        · simp at h
      | cons a as =>
        simp only [pyBind, hk, Option.map_eq_some_iff] at h
        obtain ⟨e, he, _⟩ := h
        exact st _ _ he
    · cases args with
      | nil =>
        simp only [pyBind, hk] at h
        split at h
        · simp only [Option.map_eq_some_iff] at h
          obtain ⟨e, he, _⟩ := h
          exact er _ _ he
        · simp at h
      | cons a as =>
        simp only [pyBind, hk] at h
        split at h
        · simp at h
        · simp only [Option.map_eq_some_iff] at h
          obtain ⟨e, he, _⟩ := h
          exact st _ _ he
    · cases args with
      | nil =>
        simp only [pyBind, hk] at h
        split at h
        · simp only [Option.map_eq_some_iff] at h
          obtain ⟨e, he, _⟩ := h
          exact er _ _ he
        · simp at h
      | cons a as => simp [pyBind, hk] at h

/-- The environment a plain signature binds. -/
theorem bind_plain (ps : List (Param V)) (hp : Plain ps) (hn : (ps.map (·.name)).Nodup)
    (args : List V) (kws : List (String × V)) (env) (h : pyBind ps args kws = some env) :
    args.length ≤ ps.length ∧
    env = (ps.map (·.name)).zip ((vals ps args kws).map Bound.one) := by
  induction ps generalizing args kws env with
  | nil =>
    simp only [pyBind] at h
    split at h
    · rename_i hh
      have : args = [] := by simpa using hh.1
      subst this
      simp only [Option.some.injEq] at h
      subst h
      simp
    · simp at h
  | cons p ps ih =>
    have hps : Plain ps := fun q hq => hp q (List.mem_cons_of_mem _ hq)
    simp only [List.map_cons, List.nodup_cons] at hn
    rcases hp p (List.mem_cons_self ..) with hk | hk | hk
    · have nokw : ∀ a e, pyBind ps a kws = some e → findKw p.name kws = Option.none := by
        intro a e he
        cases hf : findKw p.name kws with
        | none => rfl
        | some v => exact absurd (bind_names ps hps a kws e he p.name v hf) hn.1
      cases args with
      | nil =>
        simp only [pyBind, hk] at h
        split at h
        · rename_i d hd
          simp only [Option.map_eq_some_iff] at h
          obtain ⟨e, he, rfl⟩ := h
          obtain ⟨-, rfl⟩ := ih hps hn.2 _ _ _ he
          simp [vals, nokw _ _ he, defaultArg, hd]
        · simp at h
      | cons a as =>
        simp only [pyBind, hk, Option.map_eq_some_iff] at h
        obtain ⟨e, he, rfl⟩ := h
        obtain ⟨h1, rfl⟩ := ih hps hn.2 _ _ _ he
        simp [vals, nokw _ _ he, h1]
    · cases args with
      | nil =>
        simp only [pyBind, hk] at h
        split at h
        · rename_i d hd
          simp only [Option.map_eq_some_iff] at h
          obtain ⟨e, he, rfl⟩ := h
          obtain ⟨-, rfl⟩ := ih hps hn.2 _ _ _ he
          rw [vals_eraseKw _ _ _ _ hn.1]
          have : (findKw p.name kws).getD (defaultArg p) = d := by
            simp only [kwOrDefault] at hd
            cases hf : findKw p.name kws with
            | none => rw [hf] at hd; simp only at hd; simp [defaultArg, hd]
            | some v => rw [hf] at hd; simpa using hd
          simp [vals, this]
        · simp at h
      | cons a as =>
        simp only [pyBind, hk] at h
        split at h
        · simp at h
        · rename_i hf
          simp only [Option.map_eq_some_iff] at h
          obtain ⟨e, he, rfl⟩ := h
          obtain ⟨h1, rfl⟩ := ih hps hn.2 _ _ _ he
          simp [vals, hf, h1]
    · cases args with
      | nil =>
        simp only [pyBind, hk] at h
        split at h
        · rename_i d hd
          simp only [Option.map_eq_some_iff] at h
          obtain ⟨e, he, rfl⟩ := h
          obtain ⟨-, rfl⟩ := ih hps hn.2 _ _ _ he
          rw [vals_eraseKw _ _ _ _ hn.1]
          have : (findKw p.name kws).getD (defaultArg p) = d := by
            simp only [kwOrDefault] at hd
            cases hf : findKw p.name kws with
            | none => rw [hf] at hd; simp only at hd; simp [defaultArg, hd]
            | some v => rw [hf] at hd; simpa using hd
          simp [vals, this]
        · simp at h
      | cons a as => simp [pyBind, hk] at h

/-! ## The key -/

theorem lookupArg_append (n : String) (l m : List (String × V)) :
    lookupArg n (l ++ m) = (findKw n l).getD (lookupArg n m) := by
  induction l with
  | nil => simp [findKw]
  | cons kv l ih =>
    obtain ⟨k, v⟩ := kv
    by_cases hk : k = n <;> simp [lookupArg, findKw, hk, ih]

omit [PyVal V] in
theorem findKw_append (n : String) (l m : List (String × V)) :
    findKw n (l ++ m) = (findKw n l).or (findKw n m) := by
  induction l with
  | nil => simp [findKw]
  | cons kv l ih =>
    obtain ⟨k, v⟩ := kv
    by_cases hk : k = n <;> simp [findKw, hk, ih]

omit [PyVal V] in
theorem findKw_none (n : String) (l : List (String × V)) :
    n ∉ l.map (·.1) → findKw n l = Option.none := by
  induction l with
  | nil => intro _; rfl
  | cons kv l ih =>
    obtain ⟨k, v⟩ := kv
    simp only [List.map_cons, List.mem_cons, not_or]
    rintro ⟨h1, h2⟩
    simp [findKw, Ne.symm h1, ih h2]

omit [PyVal V] in
theorem findKw_reverse (n : String) (l : List (String × V)) (h : (l.map (·.1)).Nodup) :
    findKw n l.reverse = findKw n l := by
  induction l with
  | nil => rfl
  | cons kv l ih =>
    obtain ⟨k, v⟩ := kv
    simp only [List.map_cons, List.nodup_cons] at h
    rw [List.reverse_cons, findKw_append, ih h.2]
    by_cases hk : k = n
    · subst hk
      rw [findKw_none _ _ h.1]
      simp [findKw]
    · simp [findKw, hk]

theorem zip_fst_sublist {A B : Type} (l : List A) (r : List B) :
    List.Sublist ((l.zip r).map (·.1)) l := by
  induction l generalizing r with
  | nil => simp
  | cons a l ih =>
    cases r with
    | nil => simp
    | cons b r => simpa using ih r

theorem storeKey_eq (ps : List (Param V)) (hn : (ps.map (·.name)).Nodup) (args : List V)
    (kws : List (String × V)) (hk : (kws.map (·.1)).Nodup) (hl : args.length ≤ ps.length) :
    storeKey ps args kws = some (vals ps args kws) := by
  simp only [storeKey, hl, if_true, Option.some.injEq]
  have zn : (((ps.map (·.name)).zip args).map (·.1)).Nodup := by
    exact hn.sublist (zip_fst_sublist _ _)
  have e : ∀ n, lookupArg n (kws.reverse ++ ((ps.map (·.name)).zip args).reverse
      ++ ps.map (fun p => (p.name, defaultArg p))) =
      (findKw n kws).getD ((findKw n ((ps.map (·.name)).zip args)).getD
        (lookupArg n (ps.map (fun p => (p.name, defaultArg p))))) := by
    intro n
    rw [List.append_assoc, lookupArg_append, lookupArg_append, findKw_reverse _ _ hk,
      findKw_reverse _ _ zn]
  simp only [e]
  clear e zn hl
  induction ps generalizing args with
  | nil => rfl
  | cons p ps ih =>
    simp only [List.map_cons, List.nodup_cons] at hn
    simp only [List.map_cons, vals, List.cons.injEq]
    constructor
    · cases args with
      | nil => simp [lookupArg, findKw]
      | cons a as => simp [findKw]
    · rw [← ih hn.2 args.tail]
      apply List.map_congr_left
      intro n hnm
      have hne : p.name ≠ n := by
        rintro rfl; exact hn.1 hnm
      cases args with
      | nil => simp [lookupArg, hne, findKw]
      | cons a as => simp [lookupArg, hne, findKw]

theorem keyEq_refl (k : List V) : keyEq k k = true := by
  induction k with
  | nil => rfl
  | cons a k ih => simp [keyEq, ih, PyVal.eq_refl]

theorem keyEq_symm {a b : List V} (h : keyEq a b = true) : keyEq b a = true := by
  induction a generalizing b with
  | nil => cases b <;> simp_all [keyEq]
  | cons x a ih =>
    cases b with
    | nil => simp [keyEq] at h
    | cons y b =>
      simp only [keyEq, Bool.and_eq_true] at h ⊢
      exact ⟨PyVal.eq_symm _ _ h.1, ih h.2⟩

theorem keyEq_trans {a b c : List V} (h : keyEq a b = true) (h' : keyEq b c = true) :
    keyEq a c = true := by
  induction a generalizing b c with
  | nil => cases b <;> cases c <;> simp_all [keyEq]
  | cons x a ih =>
    cases b with
    | nil => simp [keyEq] at h
    | cons y b =>
      cases c with
      | nil => simp [keyEq] at h'
      | cons z c =>
        simp only [keyEq, Bool.and_eq_true] at h h' ⊢
        exact ⟨PyVal.eq_trans _ _ _ h.1 h'.1, ih h.2 h'.2⟩

theorem find_some_mem {d : Dict V} {key : List V} {v : V} (h : d.find key = some v) :
    ∃ k, (k, v) ∈ d ∧ keyEq k key = true := by
  induction d with
  | nil => simp [Dict.find] at h
  | cons kv d ih =>
    obtain ⟨k, w⟩ := kv
    simp only [Dict.find] at h
    split at h
    · rename_i hk
      simp only [Option.some.injEq] at h
      subst h
      exact ⟨k, List.mem_cons_self .., hk⟩
    · obtain ⟨k', h1, h2⟩ := ih h
      exact ⟨k', List.mem_cons_of_mem _ h1, h2⟩

theorem find_isSome {d : Dict V} {key k : List V} {v : V} (h : (k, v) ∈ d)
    (hk : keyEq k key = true) : ∃ w, d.find key = some w := by
  induction d with
  | nil => simp at h
  | cons kv d ih =>
    obtain ⟨k', w⟩ := kv
    simp only [Dict.find]
    split
    · exact ⟨w, rfl⟩
    · rename_i hne
      rcases List.mem_cons.mp h with h | h
      · simp only [Prod.mk.injEq] at h
        obtain ⟨rfl, rfl⟩ := h
        exact absurd hk hne
      · exact ih h

end Chords.Cache
