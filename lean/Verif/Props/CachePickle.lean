import Verif.Props.CacheCrash
import Verif.Lemmas.PickleEx

/-!
# C167: results that pickle refuses

`diff_end_p_fun` and `diff_start_p_fun` (pseudospectral.py 1095-1124) are decorated with `store_results` and return a
function made by `lambdify`, which pickle does not save.
-/

namespace Chords.Cache
open Spec
variable {V : Type} [PyVal V]

/-- Every dictionary of results of `f` can be pickled. -/
def Saves (P : Pickle V) (f : Func V) : Prop :=
  ∀ d : Dict V, (∀ kv ∈ d, ∃ env, f.body env = some kv.2) → (P.enc d).isSome

/-- No dictionary with a result of `f` in it can be pickled. -/
def Refused (P : Pickle V) (f : Func V) : Prop :=
  ∀ d : Dict V, (∃ kv ∈ d, ∃ env, f.body env = some kv.2) → P.enc d = none

/-- Each file of the family is unreadable, which only happens to functions with results that cannot be saved, or has right
entries. -/
def FairFS (P : Pickle V) (fam : Func V → Prop) (fs : FS) : Prop :=
  ∀ f, fam f → ∀ b, fs.file f.name = some b → (P.dec b = none ∧ ¬ Saves P f) ∨
    ∃ d, P.dec b = some d ∧ Right f d ∧ ∀ kv ∈ d, ∃ env, f.body env = some kv.2

theorem fairFS_set {P : Pickle V} {fam : Func V → Prop} (hfam : Family fam) {fs : FS} (h : FairFS P fam fs) {f : Func V}
    (hf : fam f) {b : Bytes} (hb : (P.dec b = none ∧ ¬ Saves P f) ∨
      ∃ d, P.dec b = some d ∧ Right f d ∧ ∀ kv ∈ d, ∃ env, f.body env = some kv.2) : FairFS P fam (fs.set f.name b) := by
  intro g hg b' hb'
  by_cases hn : g.name = f.name
  · have := hfam.inj g f hg hf hn
    subst this
    simp only [FS.set, if_true, Option.some.injEq] at hb'
    subst hb'
    exact hb
  · simp only [FS.set, hn, if_false] at hb'
    exact h g hg b' hb'

/-- One call from such a file system. -/
theorem call_fair {P : Pickle V} {fam : Func V → Prop} (hfam : Family fam) {fs : FS} (h : FairFS P fam fs) {f : Func V}
    (hf : fam f) {a : List V} {k : List (String × V)} (hk : (k.map (·.1)).Nodup)
    (hh : ∀ env, pyBind f.params a k = some env → ∀ n v, (n, Bound.one v) ∈ env → PyVal.hashable v = true) :
    FairFS P fam (call P fs f a k).1 ∧
      ((call P fs f a k).2.1 = direct f a k ∨
        ¬ Saves P f ∧ ((call P fs f a k).2.1 = .pickleError ∨ (call P fs f a k).2.1 = .loadError)) := by
  unfold call direct
  cases hb : pyBind f.params a k with
  | none => exact ⟨h, Or.inl rfl⟩
  | some env =>
    obtain ⟨key, h1, h2, h3⟩ := C38_key f.params (hfam.plain f hf) (hfam.nodup f hf) a k hk env hb
    have hall : key.all PyVal.hashable = true := by
      rw [List.all_eq_true]
      intro v hv
      obtain ⟨i, hi, rfl⟩ := List.getElem_of_mem hv
      refine hh env hb ((f.params.map (·.name))[i]'(by simp; omega)) _ ?_
      rw [h3]
      refine List.mem_iff_getElem.mpr ⟨i, by simp; omega, by simp⟩
    have hdir : FairFS P fam { fs with dir := true } := h
    have run : ∀ d r, Right f d → (∀ kv ∈ d, ∃ env, f.body env = some kv.2) → f.body env = some r →
        FairFS P fam (match P.enc (d ++ [(key, r)]) with
              | none => (({ fs with dir := true } : FS).set f.name [], (.pickleError : Outcome V), true)
              | some b => (({ fs with dir := true } : FS).set f.name b, .value r, true)).1 ∧
        ((match P.enc (d ++ [(key, r)]) with
              | none => (({ fs with dir := true } : FS).set f.name [], (.pickleError : Outcome V), true)
              | some b => (({ fs with dir := true } : FS).set f.name b, .value r, true)).2.1 = .value r ∨
         ¬ Saves P f ∧ (match P.enc (d ++ [(key, r)]) with
              | none => (({ fs with dir := true } : FS).set f.name [], (.pickleError : Outcome V), true)
              | some b => (({ fs with dir := true } : FS).set f.name b, .value r, true)).2.1 = .pickleError) := by
      intro d r hd hv hr
      have hv' : ∀ kv ∈ d ++ [(key, r)], ∃ env, f.body env = some kv.2 := by
        intro kv hm
        rcases List.mem_append.mp hm with hm | hm
        · exact hv kv hm
        · rw [List.mem_singleton] at hm
          subst hm
          exact ⟨env, hr⟩
      cases he : P.enc (d ++ [(key, r)]) with
      | none =>
        have hs : ¬ Saves P f := fun hs => by
          have := hs _ hv'
          rw [he] at this
          simp at this
        exact ⟨fairFS_set hfam hdir hf (Or.inl ⟨P.dec_nil, hs⟩), Or.inr ⟨hs, rfl⟩⟩
      | some b =>
        refine ⟨fairFS_set hfam hdir hf (Or.inr ⟨_, ?_, right_insert hfam hf hd hk hb h1 hr, hv'⟩), Or.inl rfl⟩
        simpa using P.dec_enc _ b [] he
    simp only [h1]
    cases hfile : fs.file f.name with
    | none =>
      cases hr : f.body env with
      | none => exact ⟨hdir, Or.inl rfl⟩
      | some r =>
        simp only [hall, if_true]
        obtain ⟨g1, g2⟩ := run [] r (right_nil f) (by simp) hr
        exact ⟨g1, g2.imp id fun g => ⟨g.1, Or.inl g.2⟩⟩
    | some bytes =>
      rcases h f hf bytes hfile with ⟨hd, hs⟩ | ⟨d, hd, hR, hv⟩
      · simp only [hd]
        exact ⟨hdir, Or.inr ⟨hs, Or.inr trivial⟩⟩
      simp only [hd, hall, if_true]
      cases hfind : d.find key with
      | some v =>
        obtain ⟨k', hm, he⟩ := find_some_mem hfind
        have := hR k' v hm a k env key hk hb h1 he
        simp only [this]
        exact ⟨hdir, Or.inl trivial⟩
      | none =>
        cases hr : f.body env with
        | none => exact ⟨hdir, Or.inl rfl⟩
        | some r =>
          obtain ⟨g1, g2⟩ := run d r hR hv hr
          exact ⟨g1, g2.imp id fun g => ⟨g.1, Or.inl g.2⟩⟩

/-- C167, the part that holds. Whatever pickle refuses, in every history each call answers what the undecorated function
answers or raises the error of pickle; and a function all of whose results can be saved answers what the undecorated one
answers, whatever happens to the results of the other functions. -/
theorem C167_partial (P : Pickle V) (fam : Func V → Prop) (hfam : Family fam) (h : List (Event V)) (f : Func V)
    (a : List V) (k : List (String × V)) (hv : ValidHist fam (h ++ [.call f a k])) :
    ∃ o b, (runHist P FS.empty (h ++ [.call f a k])).2.getLast? = some (o, b) ∧
      (o = direct f a k ∨ o = .pickleError ∨ o = .loadError) ∧ (Saves P f → o = direct f a k) := by
  have gen : ∀ h fs, FairFS P fam fs → ValidHist fam h → FairFS P fam (runHist P fs h).1 := by
    intro h
    induction h with
    | nil => intro fs hg _; exact hg
    | cons e h ih =>
      intro fs hg hv
      have hv' : ValidHist fam h := fun f a k hm => hv f a k (List.mem_cons_of_mem _ hm)
      cases e with
      | restart => exact ih fs hg hv'
      | call f a k =>
        obtain ⟨hf, hk, hh⟩ := hv f a k (List.mem_cons_self ..)
        exact ih _ (call_fair hfam hg hf hk hh).1 hv'
  have hg := gen h FS.empty (fun f _ b hb => by simp [FS.empty] at hb)
    (fun f a k hm => hv f a k (List.mem_append_left _ hm))
  obtain ⟨hf, hk, hh⟩ := hv f a k (by simp)
  obtain ⟨-, g⟩ := call_fair hfam hg hf hk hh
  refine ⟨(call P (runHist P FS.empty h).1 f a k).2.1, (call P (runHist P FS.empty h).1 f a k).2.2, ?_, ?_, ?_⟩
  · rw [runHist_append]
    simp [runHist]
  · rcases g with g | ⟨-, g⟩
    · exact Or.inl g
    · exact Or.inr g
  · intro hs
    rcases g with g | ⟨g, -⟩
    · exact g
    · exact absurd hs g

/-- C167 is false for every function whose results pickle refuses: no call in any history ever returns a value, the first
one that gets as far as a result raises the error of pickle, and all the later ones raise when they load the file, also
for other arguments and after restarts. -/
theorem C167_refuted (P : Pickle V) (f : Func V) (hP : Refused P f) (h : List (Event V))
    (hn : ∀ g a k, Event.call g a k ∈ h → g.name = f.name → g = f) (a : List V) (k : List (String × V)) :
    (∀ v b, (runHist P FS.empty (h ++ [.call f a k])).2.getLast? ≠ some (.value v, b)) ∧
    ∀ env key r, pyBind f.params a k = some env → storeKey f.params a k = some key → key.all PyVal.hashable = true →
      f.body env = some r →
      direct f a k = .value r ∧
      ((runHist P FS.empty (h ++ [.call f a k])).2.getLast? = some (.pickleError, true) ∨
        (runHist P FS.empty (h ++ [.call f a k])).2.getLast? = some (.loadError, false)) ∧
      ∀ h' a' k' env' key', pyBind f.params a' k' = some env' → storeKey f.params a' k' = some key' →
        (runHist P FS.empty (h ++ [.call f a k] ++ h' ++ [.call f a' k'])).2.getLast? = some (.loadError, false) := by
  have last : ∀ fs, (runHist P fs [.call f a k]).2 = [(call P fs f a k).2] := fun fs => by simp [runHist]
  -- the file of `f` is missing or empty
  have one : ∀ (fs : FS) (g : Func V) a k, (g.name = f.name → g = f) →
      (fs.file f.name = none ∨ fs.file f.name = some []) →
      ((call P fs g a k).1.file f.name = none ∨ (call P fs g a k).1.file f.name = some []) := by
    intro fs g a k hg hfs
    unfold call
    cases hb : pyBind g.params a k with
    | none => exact hfs
    | some env =>
      cases hk : storeKey g.params a k with
      | none => exact hfs
      | some key =>
        by_cases hgn : g.name = f.name
        · have := hg hgn
          subst this
          rcases hfs with hfs | hfs
          · simp only [hfs]
            cases hr : g.body env with
            | none => exact Or.inl hfs
            | some r =>
              by_cases hall : key.all PyVal.hashable = true
              · have he : P.enc ([] ++ [(key, r)]) = none := hP _ ⟨(key, r), by simp, env, hr⟩
                simp [hall, FS.set]
                simp only [List.nil_append] at he
                simp [he]
              · simp [hall, hfs]
          · simp only [hfs, P.dec_nil]
            exact Or.inr trivial
        · have hne : ¬ f.name = g.name := fun h => hgn h.symm
          dsimp only
          repeat' split
          all_goals first
            | exact hfs
            | simpa [FS.set, hne] using hfs
  have keep : ∀ (h : List (Event V)) (fs : FS), (∀ g a k, Event.call g a k ∈ h → g.name = f.name → g = f) →
      (fs.file f.name = none ∨ fs.file f.name = some []) →
      ((runHist P fs h).1.file f.name = none ∨ (runHist P fs h).1.file f.name = some []) := by
    intro h
    induction h with
    | nil => intro fs _ hfs; exact hfs
    | cons e h ih =>
      intro fs hn hfs
      have hn' : ∀ g a k, Event.call g a k ∈ h → g.name = f.name → g = f :=
        fun g a k hm => hn g a k (List.mem_cons_of_mem _ hm)
      cases e with
      | restart => exact ih fs hn' hfs
      | call g a k => exact ih _ hn' (one fs g a k (hn g a k (List.mem_cons_self ..)) hfs)
  have hfs := keep h FS.empty hn (Or.inl rfl)
  obtain ⟨fs, efs⟩ : ∃ fs, fs = (runHist P FS.empty h).1 := ⟨_, rfl⟩
  rw [← efs] at hfs
  have elast : (runHist P FS.empty (h ++ [.call f a k])).2.getLast? = some (call P fs f a k).2 := by
    rw [runHist_append, ← efs]
    simp [runHist]
  have efs' : (runHist P FS.empty (h ++ [.call f a k])).1 = (call P fs f a k).1 := by
    rw [runHist_append, ← efs]
    simp [runHist]
  constructor
  · intro v b e
    rw [elast, Option.some.injEq] at e
    revert e
    unfold call
    cases hb : pyBind f.params a k with
    | none => simp
    | some env =>
      cases hk : storeKey f.params a k with
      | none => simp
      | some key =>
        rcases hfs with hfs | hfs
        · simp only [hfs]
          cases hr : f.body env with
          | none => simp
          | some r =>
            have he : P.enc ([] ++ [(key, r)]) = none := hP _ ⟨(key, r), by simp, env, hr⟩
            simp only [he]
            split <;> simp
        · simp [hfs, P.dec_nil]
  · intro env key r hb hk hall hr
    have he : P.enc ([] ++ [(key, r)]) = none := hP _ ⟨(key, r), by simp, env, hr⟩
    have hcall : (call P fs f a k).1.file f.name = some [] ∧
        ((call P fs f a k).2 = (.pickleError, true) ∨ (call P fs f a k).2 = (.loadError, false)) := by
      unfold call
      simp only [hb, hk]
      rcases hfs with hfs | hfs
      · simp only [hfs, hr, hall, if_true, he]
        exact ⟨by simp [FS.set], Or.inl trivial⟩
      · simp only [hfs, P.dec_nil]
        exact ⟨trivial, Or.inr trivial⟩
    refine ⟨by simp [direct, hb, hr], ?_, ?_⟩
    · rw [elast]
      simpa using hcall.2
    · intro h' a' k' env' key' hb' hk'
      have hfile : (runHist P FS.empty (h ++ [.call f a k])).1.file f.name = some [] := by
        rw [efs']; exact hcall.1
      have := C39_broken_forever P _ f [] hfile P.dec_nil h' a' k' env' hb' key' hk'
      rw [List.append_assoc, runHist_append]
      have hne : (runHist P (runHist P FS.empty (h ++ [.call f a k])).1 (h' ++ [.call f a' k'])).2 ≠ [] := by
        intro e
        rw [e] at this
        simp at this
      rw [List.getLast?_append, this]
      rfl

/-- The pickle of the example, refusing `None` among the results. -/
def exRefuse : Pickle Num where
  enc d := if d.any (fun kv => kv.2 == Num.none) then none else exPickle.enc d
  dec := exPickle.dec
  dec_enc d b rest h := exPickle.dec_enc d b rest (by split at h <;> simp_all)
  dec_nil := rfl
  dec_prefix d b k h hk := exPickle.dec_prefix d b k (by split at h <;> simp_all) hk

/-- A function with the signature of `diff_end_p_fun`, pseudospectral.py 1097, and a result that is refused. -/
def exDiffEnd : Func Num where
  name := "diff_end_p_fun"
  params := [⟨"N", .pos, none⟩, ⟨"scheme", .pos, some (.int 0)⟩, ⟨"precission", .pos, some (.int 16)⟩]
  body _ := some .none

/-- The hypotheses of C167 are met: the result of `exDiffEnd` is refused, those of `exFunc` are saved, and a call reaches
the result. -/
example : Refused exRefuse exDiffEnd ∧ Saves exRefuse exFunc ∧
    (∃ env key, pyBind exDiffEnd.params [.int 3] [] = some env ∧ storeKey exDiffEnd.params [.int 3] [] = some key ∧
      key.all PyVal.hashable = true ∧ exDiffEnd.body env = some .none) ∧
    ValidHist (fun f => f = exFunc) [.call exFunc [.int 1] []] := by
  refine ⟨?_, ?_, ⟨_, _, rfl, rfl, rfl, rfl⟩, ?_⟩
  · rintro d ⟨kv, hm, env, e⟩
    have : kv.2 = Num.none := by
      simp only [exDiffEnd, Option.some.injEq] at e
      exact e.symm
    have : d.any (fun kv => kv.2 == Num.none) = true := List.any_eq_true.mpr ⟨kv, hm, by simp [this]⟩
    simp [exRefuse, this]
  · intro d hd
    have : d.any (fun kv => kv.2 == Num.none) = false := by
      rw [List.any_eq_false]
      intro kv hm
      obtain ⟨env, e⟩ := hd kv hm
      intro hk
      rw [beq_iff_eq] at hk
      rw [hk] at e
      simp only [exFunc] at e
      repeat' split at e
      all_goals simp at e
    simp [exRefuse, this, exPickle_enc]
  · intro f a k hm
    simp only [List.mem_singleton, Event.call.injEq] at hm
    obtain ⟨rfl, rfl, rfl⟩ := hm
    exact ⟨rfl, by decide, fun _ _ _ _ _ => rfl⟩

end Chords.Cache
