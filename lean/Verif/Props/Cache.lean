import Verif.Lemmas.Cache

/-!
# Property theorems C37-C41 (result cache `store_results`)
-/

namespace Chords.Cache
open Spec
variable {V : Type} [PyVal V]

/-! ## Vocabulary of the statements -/

/-- The body does not distinguish arguments that compare equal in Python. -/
def Respects (f : Func V) : Prop :=
  ∀ vs ws : List V, keyEq vs ws = true →
    f.body ((f.params.map (·.name)).zip (vs.map Bound.one)) =
    f.body ((f.params.map (·.name)).zip (ws.map Bound.one))

/-- A set of decorated functions the cache is meant for: plain signatures with distinct parameter
names, no two functions with the same name. -/
structure Family (fam : Func V → Prop) : Prop where
  plain : ∀ f, fam f → Plain f.params
  nodup : ∀ f, fam f → (f.params.map (·.name)).Nodup
  resp : ∀ f, fam f → Respects f
  inj : ∀ f g, fam f → fam g → f.name = g.name → f = g

/-- History of a program (or of several, one after the other). -/
inductive Event (V : Type)
  | call (f : Func V) (args : List V) (kws : List (String × V))
  | restart

/-- Run a history: outcomes in order, and whether each call executed the body. -/
def runHist (P : Pickle V) : FS → List (Event V) → FS × List (Outcome V × Bool)
  | fs, [] => (fs, [])
  | fs, .restart :: h => runHist P fs h
  | fs, .call f a k :: h =>
    let r := call P fs f a k
    let rest := runHist P r.1 h
    (rest.1, r.2 :: rest.2)

/-- What the undecorated functions would have answered. -/
def directHist : List (Event V) → List (Outcome V)
  | [] => []
  | .restart :: h => directHist h
  | .call f a k :: h => direct f a k :: directHist h

/-- Every call uses a function of the family, well-formed keywords and hashable arguments. -/
def ValidHist (fam : Func V → Prop) (h : List (Event V)) : Prop :=
  ∀ f a k, Event.call f a k ∈ h →
    fam f ∧ (k.map (·.1)).Nodup ∧
      ∀ env, pyBind f.params a k = some env → ∀ n v, (n, Bound.one v) ∈ env → PyVal.hashable v = true

/-! ## C38: the key -/

/-- C38.  For a signature without `*args`/`**kwargs`: whenever the call is legal, the key is exactly
the tuple of bound values, so it determines, and is determined by, what the body sees. -/
theorem C38_key (ps : List (Param V)) (hp : Plain ps) (hn : (ps.map (·.name)).Nodup)
    (args : List V) (kws : List (String × V)) (hk : (kws.map (·.1)).Nodup) (env)
    (h : pyBind ps args kws = some env) :
    ∃ key, storeKey ps args kws = some key ∧ key.length = ps.length ∧
      env = (ps.map (·.name)).zip (key.map Bound.one) := by
  obtain ⟨hl, he⟩ := bind_plain ps hp hn args kws env h
  exact ⟨_, storeKey_eq ps hn args kws hk hl, vals_length .., he⟩

/-- C38, both directions: two legal calls share the key iff they bind the same values. -/
theorem C38_same_key_iff (ps : List (Param V)) (hp : Plain ps) (hn : (ps.map (·.name)).Nodup)
    (a b : List V) (k l : List (String × V)) (hk : (k.map (·.1)).Nodup) (hl : (l.map (·.1)).Nodup)
    (env env') (h : pyBind ps a k = some env) (h' : pyBind ps b l = some env') :
    storeKey ps a k = storeKey ps b l ↔ env = env' := by
  obtain ⟨key, h1, h2, rfl⟩ := C38_key ps hp hn a k hk env h
  obtain ⟨key', h1', h2', rfl⟩ := C38_key ps hp hn b l hl env' h'
  rw [h1, h1', Option.some.injEq]
  constructor
  · rintro rfl; rfl
  · intro he
    have := congrArg (fun e : List (String × Bound V) => e.map (·.2)) he
    rw [List.map_snd_zip (by simp [h2]), List.map_snd_zip (by simp [h2'])] at this
    exact (List.map_injective_iff.mpr (fun x y hxy => by injection hxy)) this

section Example
/-- Python integers with Boolean flag: `1 == True`. -/
inductive Num
  | int (n : Int)
  | bool (b : Bool)
  | none
  deriving DecidableEq

/-- Numeric value for `==`. -/
def Num.code : Num → Option Int
  | .int n => some n
  | .bool true => some 1
  | .bool false => some 0
  | .none => Option.none

instance : PyVal Num where
  eq a b := a.code == b.code
  hashable _ := true
  none := .none
  eq_refl a := by simp
  eq_symm a b h := by
    simp only [beq_iff_eq] at *
    exact h.symm
  eq_trans a b c h h' := by
    simp only [beq_iff_eq] at *
    exact h.trans h'

/-- `def f(a, b=5)` -/
def exParams : List (Param Num) := [⟨"a", .pos, none⟩, ⟨"b", .pos, some (.int 5)⟩]

/-- Non-vacuity of C38: `f(1)`, `f(a=1)` and `f(b=5, a=1)` are legal and share one key. -/
example : Plain exParams ∧ (exParams.map (·.name)).Nodup ∧
    (pyBind exParams [.int 1] []).isSome ∧ (pyBind exParams [] [("b", .int 5), ("a", .int 1)]).isSome ∧
    storeKey exParams [.int 1] [] = storeKey exParams [] [("b", .int 5), ("a", .int 1)] ∧
    storeKey exParams [.int 1] [] ≠ storeKey exParams [.int 2] [] := by
  refine ⟨?_, by decide, by decide, by decide, by decide, by decide⟩
  intro p hp
  simp [exParams] at hp
  rcases hp with rfl | rfl <;> simp
end Example

/-- C38 is false with `**kwargs`: `f(x=1)` and `f(x=2)` share a key although they bind differently. -/
theorem C38_varkw_refuted : ∃ (ps : List (Param Num)) (k l : List (String × Num)) (e e' : _),
    pyBind ps [] k = some e ∧ pyBind ps [] l = some e' ∧ e ≠ e' ∧
    storeKey ps [] k = storeKey ps [] l := by
  refine ⟨[⟨"kwargs", .varKw, none⟩], [("x", .int 1)], [("x", .int 2)], _, _, rfl, rfl, ?_, by decide⟩
  simp

/-- C38 is false with `*args`: for `def f(*args, b=0)` the calls `f(1, 2)` and `f(1, b=2)` share a key,
and `f(1, 2, 3)` is a legal call of which the wrapper cannot build a key (IndexError). -/
theorem C38_varargs_refuted : ∃ (ps : List (Param Num)) (e e' e'' : _),
    pyBind ps [.int 1, .int 2] [] = some e ∧ pyBind ps [.int 1] [("b", .int 2)] = some e' ∧ e ≠ e' ∧
    storeKey ps [.int 1, .int 2] [] = storeKey ps [.int 1] [("b", .int 2)] ∧
    pyBind ps [.int 1, .int 2, .int 3] [] = some e'' ∧
    storeKey ps [.int 1, .int 2, .int 3] [] = none := by
  refine ⟨[⟨"args", .varPos, none⟩, ⟨"b", .kwOnly, some (.int 0)⟩], _, _, _, rfl, rfl, ?_, by decide,
    rfl, by decide⟩
  simp

/-! ## C37: sequential histories -/

/-- Every stored entry is what the function returns for every call with an equal key. -/
def Right (f : Func V) (d : Dict V) : Prop :=
  ∀ k v, (k, v) ∈ d → ∀ a kw env key, (kw.map (·.1)).Nodup → pyBind f.params a kw = some env →
    storeKey f.params a kw = some key → keyEq k key = true → f.body env = some v

def GoodFS (P : Pickle V) (fam : Func V → Prop) (fs : FS) : Prop :=
  ∀ f, fam f → ∀ b, fs.file f.name = some b → ∃ d, P.dec b = some d ∧ Right f d

theorem right_nil (f : Func V) : Right f [] := by
  intro k v h; simp at h

theorem right_insert {fam : Func V → Prop} (hfam : Family fam) {f : Func V} (hf : fam f)
    {d : Dict V} (hd : Right f d) {a kw env key} (hk : (kw.map (·.1)).Nodup)
    (hb : pyBind f.params a kw = some env)
    (hkey : storeKey f.params a kw = some key) {r : V} (hr : f.body env = some r) :
    Right f (d ++ [(key, r)]) := by
  intro k v hm a' kw' env' key' hk' hb' hkey' he
  rcases List.mem_append.mp hm with hm | hm
  · exact hd k v hm a' kw' env' key' hk' hb' hkey' he
  · simp only [List.mem_singleton, Prod.mk.injEq] at hm
    obtain ⟨rfl, rfl⟩ := hm
    obtain ⟨key1, h1, -, rfl⟩ := C38_key f.params (hfam.plain f hf) (hfam.nodup f hf) a kw hk env hb
    obtain ⟨key2, h2, -, rfl⟩ :=
      C38_key f.params (hfam.plain f hf) (hfam.nodup f hf) a' kw' hk' env' hb'
    rw [h1, Option.some.injEq] at hkey
    rw [h2, Option.some.injEq] at hkey'
    subst hkey hkey'
    rw [← hfam.resp f hf _ _ he, hr]

theorem goodFS_set {P : Pickle V} {fam : Func V → Prop} (hfam : Family fam) {fs : FS}
    (h : GoodFS P fam fs) {f : Func V} (hf : fam f) {d : Dict V} (hd : Right f d) {b : Bytes}
    (hb : P.enc d = some b) : GoodFS P fam (fs.set f.name b) := by
  intro g hg b' hb'
  by_cases hn : g.name = f.name
  · have := hfam.inj g f hg hf hn
    subst this
    simp only [FS.set, if_true, Option.some.injEq] at hb'
    subst hb'
    exact ⟨d, by simpa using P.dec_enc d b [] hb, hd⟩
  · simp only [FS.set, hn, if_false] at hb'
    exact h g hg b' hb'

/-- One call from a good file system. -/
theorem call_good {P : Pickle V} (henc : ∀ d, (P.enc d).isSome) {fam : Func V → Prop}
    (hfam : Family fam) {fs : FS} (h : GoodFS P fam fs) {f : Func V} (hf : fam f) {a : List V}
    {k : List (String × V)} (hk : (k.map (·.1)).Nodup)
    (hh : ∀ env, pyBind f.params a k = some env → ∀ n v, (n, Bound.one v) ∈ env →
      PyVal.hashable v = true) :
    GoodFS P fam (call P fs f a k).1 ∧ (call P fs f a k).2.1 = direct f a k := by
  unfold call direct
  cases hb : pyBind f.params a k with
  | none => exact ⟨h, rfl⟩
  | some env =>
    obtain ⟨key, h1, h2, h3⟩ := C38_key f.params (hfam.plain f hf) (hfam.nodup f hf) a k hk env hb
    have hall : key.all PyVal.hashable = true := by
      rw [List.all_eq_true]
      intro v hv
      obtain ⟨i, hi, rfl⟩ := List.getElem_of_mem hv
      refine hh env hb ((f.params.map (·.name))[i]'(by simp; omega)) _ ?_
      rw [h3]
      refine List.mem_iff_getElem.mpr ⟨i, by simp; omega, by simp⟩
    have hdir : GoodFS P fam { fs with dir := true } := h
    have run : ∀ d, Right f d →
        GoodFS P fam (match f.body env with
          | none => (({ fs with dir := true } : FS), (Outcome.funcRaised : Outcome V), true)
          | some r =>
            if key.all PyVal.hashable then
              match P.enc (d ++ [(key, r)]) with
              | none => (({ fs with dir := true } : FS).set f.name [], .pickleError, true)
              | some b => (({ fs with dir := true } : FS).set f.name b, .value r, true)
            else ({ fs with dir := true }, .unhashable, true)).1 ∧
        (match f.body env with
          | none => (({ fs with dir := true } : FS), (Outcome.funcRaised : Outcome V), true)
          | some r =>
            if key.all PyVal.hashable then
              match P.enc (d ++ [(key, r)]) with
              | none => (({ fs with dir := true } : FS).set f.name [], .pickleError, true)
              | some b => (({ fs with dir := true } : FS).set f.name b, .value r, true)
            else ({ fs with dir := true }, .unhashable, true)).2.1 =
        (match f.body env with
          | some v => .value v
          | none => .funcRaised) := by
      intro d hd
      cases hr : f.body env with
      | none => exact ⟨hdir, rfl⟩
      | some r =>
        obtain ⟨b, hb'⟩ := Option.isSome_iff_exists.mp (henc (d ++ [(key, r)]))
        simp only [hall, hb', if_true]
        exact ⟨goodFS_set hfam hdir hf (right_insert hfam hf hd hk hb h1 hr) hb', trivial⟩
    simp only [h1]
    cases hfile : fs.file f.name with
    | none => exact run [] (right_nil f)
    | some bytes =>
      obtain ⟨d, hd, hR⟩ := h f hf bytes hfile
      simp only [hd, hall, if_true]
      cases hfind : d.find key with
      | some v =>
        obtain ⟨k', hm, he⟩ := find_some_mem hfind
        have := hR k' v hm a k env key hk hb h1 he
        simp only [this]
        exact ⟨hdir, trivial⟩
      | none =>
        have r := run d hR
        simp only [hall, if_true] at r
        exact r

/-- C37.  For every history of calls (and restarts) to functions of a family, starting without any
cache, every call answers exactly what the undecorated function would: same value, or same exception. -/
theorem C37_cache (P : Pickle V) (henc : ∀ d, (P.enc d).isSome) (fam : Func V → Prop)
    (hfam : Family fam) (h : List (Event V)) (hv : ValidHist fam h) :
    (runHist P FS.empty h).2.map (·.1) = directHist h := by
  have gen : ∀ fs, GoodFS P fam fs → (runHist P fs h).2.map (·.1) = directHist h := by
    induction h with
    | nil => intro fs _; rfl
    | cons e h ih =>
      intro fs hg
      have hv' : ValidHist fam h := fun f a k hm => hv f a k (List.mem_cons_of_mem _ hm)
      cases e with
      | restart => exact ih hv' fs hg
      | call f a k =>
        obtain ⟨hf, hk, hh⟩ := hv f a k (List.mem_cons_self ..)
        obtain ⟨g1, g2⟩ := call_good henc hfam hg hf hk hh
        simp only [runHist, directHist, List.map_cons, g2, ih hv' _ g1]
  exact gen FS.empty (fun f _ b hb => by simp [FS.empty] at hb)

/-- The cache file of `f` can be loaded and has an entry for the key. -/
def Stored (P : Pickle V) (fs : FS) (f : Func V) (key : List V) : Prop :=
  ∃ b d k v, fs.file f.name = some b ∧ P.dec b = some d ∧ (k, v) ∈ d ∧ keyEq k key = true

theorem stored_call {P : Pickle V} (henc : ∀ d, (P.enc d).isSome) {fs : FS} {f g : Func V}
    {key : List V} (h : Stored P fs f key) (a : List V) (kw : List (String × V)) :
    Stored P (call P fs g a kw).1 f key := by
  obtain ⟨b, d, k, v, h1, h2, h3, h4⟩ := h
  have same : ∀ fs' : FS, fs'.file f.name = fs.file f.name → Stored P fs' f key :=
    fun fs' e => ⟨b, d, k, v, e.trans h1, h2, h3, h4⟩
  have set : ∀ (d' : Dict V) (b' : Bytes), P.enc d' = some b' → (g.name = f.name → (k, v) ∈ d') →
      Stored P (({ fs with dir := true } : FS).set g.name b') f key := by
    intro d' b' he hm
    by_cases hn : f.name = g.name
    · refine ⟨b', d', k, v, by simp [FS.set, hn], by simpa using P.dec_enc d' b' [] he,
        hm hn.symm, h4⟩
    · exact same _ (by simp [FS.set, hn])
  unfold call
  cases pyBind g.params a kw with
  | none => exact same _ rfl
  | some env =>
    cases storeKey g.params a kw with
    | none => exact same _ rfl
    | some key' =>
      have run : ∀ d' : Dict V, (g.name = f.name → (k, v) ∈ d') → Stored P (match g.body env with
          | none => (({ fs with dir := true } : FS), (Outcome.funcRaised : Outcome V), true)
          | some r =>
            if key'.all PyVal.hashable then
              match P.enc (d' ++ [(key', r)]) with
              | none => (({ fs with dir := true } : FS).set g.name [], .pickleError, true)
              | some b => (({ fs with dir := true } : FS).set g.name b, .value r, true)
            else ({ fs with dir := true }, .unhashable, true)).1 f key := by
        intro d' hm
        cases g.body env with
        | none => exact same _ rfl
        | some r =>
          by_cases hall : key'.all PyVal.hashable
          · obtain ⟨b', hb'⟩ := Option.isSome_iff_exists.mp (henc (d' ++ [(key', r)]))
            simp only [hall, if_true, hb']
            exact set _ _ hb' (fun hn => List.mem_append_left _ (hm hn))
          · simp only [hall]
            exact same _ rfl
      dsimp only
      cases hfile : fs.file g.name with
      | none => exact run [] (fun hn => by rw [hn, h1] at hfile; simp at hfile)
      | some bytes =>
        dsimp only
        cases hd : P.dec bytes with
        | none => exact same _ rfl
        | some d' =>
          by_cases hall : key'.all PyVal.hashable
          · simp only [hall, if_true]
            cases Dict.find key' d' with
            | some w => exact same _ rfl
            | none =>
              have r := run d' (fun hn => by
                rw [hn, h1, Option.some.injEq] at hfile
                subst hfile
                rw [h2, Option.some.injEq] at hd
                subst hd
                exact h3)
              simp only [hall, if_true] at r
              exact r
          · simp only [hall]
            exact same _ rfl

theorem stored_hist {P : Pickle V} (henc : ∀ d, (P.enc d).isSome) {f : Func V} {key : List V}
    (h : List (Event V)) (fs : FS) (hs : Stored P fs f key) : Stored P (runHist P fs h).1 f key := by
  induction h generalizing fs with
  | nil => exact hs
  | cons e h ih =>
    cases e with
    | restart => exact ih fs hs
    | call g a k => exact ih _ (stored_call henc hs a k)

/-- Running a concatenated history. -/
theorem runHist_append (P : Pickle V) (fs : FS) (h h' : List (Event V)) :
    runHist P fs (h ++ h') = ((runHist P (runHist P fs h).1 h').1,
      (runHist P fs h).2 ++ (runHist P (runHist P fs h).1 h').2) := by
  induction h generalizing fs with
  | nil => rfl
  | cons e h ih =>
    cases e with
    | restart => exact ih fs
    | call g a k => simp only [List.cons_append, runHist, ih]

/-- After a call that returned a value the entry is stored. -/
theorem call_stores {P : Pickle V} {fs : FS} {f : Func V} {a : List V} {kw : List (String × V)}
    {key : List V} (hkey : storeKey f.params a kw = some key) {v : V}
    (h : (call P fs f a kw).2.1 = .value v) : Stored P (call P fs f a kw).1 f key := by
  unfold call at h ⊢
  cases hb : pyBind f.params a kw with
  | none => simp [hb] at h
  | some env =>
    simp only [hb, hkey] at h ⊢
    have run : ∀ d' : Dict V, (match f.body env with
          | none => (({ fs with dir := true } : FS), (Outcome.funcRaised : Outcome V), true)
          | some r =>
            if key.all PyVal.hashable then
              match P.enc (d' ++ [(key, r)]) with
              | none => (({ fs with dir := true } : FS).set f.name [], .pickleError, true)
              | some b => (({ fs with dir := true } : FS).set f.name b, .value r, true)
            else ({ fs with dir := true }, .unhashable, true)).2.1 = .value v →
        Stored P (match f.body env with
          | none => (({ fs with dir := true } : FS), (Outcome.funcRaised : Outcome V), true)
          | some r =>
            if key.all PyVal.hashable then
              match P.enc (d' ++ [(key, r)]) with
              | none => (({ fs with dir := true } : FS).set f.name [], .pickleError, true)
              | some b => (({ fs with dir := true } : FS).set f.name b, .value r, true)
            else ({ fs with dir := true }, .unhashable, true)).1 f key := by
      intro d' h
      cases hr : f.body env with
      | none => simp [hr] at h
      | some r =>
        by_cases hall : key.all PyVal.hashable
        · simp only [hr, hall, if_true] at h ⊢
          cases he : P.enc (d' ++ [(key, r)]) with
          | none => simp [he] at h
          | some b =>
            exact ⟨b, _, key, r, by simp [FS.set], by simpa using P.dec_enc _ b [] he,
              List.mem_append_right _ (List.mem_singleton.mpr rfl), keyEq_refl key⟩
        · simp [hr, hall] at h
    cases hfile : fs.file f.name with
    | none => simp only [hfile] at h; exact run [] h
    | some bytes =>
      simp only [hfile] at h
      dsimp only at h ⊢
      cases hd : P.dec bytes with
      | none => simp [hd] at h
      | some d =>
        by_cases hall : key.all PyVal.hashable
        · simp only [hd, hall, if_true] at h ⊢
          cases hfind : Dict.find key d with
          | some w =>
            obtain ⟨k', hm, he⟩ := find_some_mem hfind
            exact ⟨bytes, d, k', w, hfile, hd, hm, he⟩
          | none =>
            simp only [hfind] at h
            have r := run d
            simp only [hall, if_true] at r
            exact r h
        · simp [hd, hall] at h

/-- C37, second half: each argument tuple is computed at most once.  If somewhere in a history a call
returned a value, then any later call of the same function that binds the same values does not run
the body again, whatever happened in between (other calls, other functions, restarts). -/
theorem C37_computed_once (P : Pickle V) (henc : ∀ d, (P.enc d).isSome) (fs : FS) (f : Func V)
    (hp : Plain f.params) (hn : (f.params.map (·.name)).Nodup)
    (a a' : List V) (k k' : List (String × V)) (hk : (k.map (·.1)).Nodup) (hk' : (k'.map (·.1)).Nodup)
    (env) (hb : pyBind f.params a k = some env) (hb' : pyBind f.params a' k' = some env)
    (v : V) (hv : (call P fs f a k).2.1 = .value v) (between : List (Event V)) :
    ∃ r, (runHist P fs (.call f a k :: (between ++ [.call f a' k']))).2.getLast? = some (r, false) := by
  obtain ⟨key, h1, -, h3⟩ := C38_key f.params hp hn a k hk env hb
  have h1' : storeKey f.params a' k' = some key := by
    rw [← h1]
    exact (C38_same_key_iff f.params hp hn a' a k' k hk' hk env env hb' hb).mpr rfl
  have st := stored_hist henc between _ (call_stores h1 hv)
  simp only [runHist, runHist_append]
  generalize hfs : (runHist P (call P fs f a k).1 between).1 = fs2 at st
  rw [List.getLast?_cons, List.getLast?_append]
  simp only [List.getLast?_singleton, Option.some_or, Option.getD_some]
  obtain ⟨b, d, k2, w, s1, s2, s3, s4⟩ := st
  unfold call
  simp only [hb', h1', s1, s2]
  by_cases hall : key.all PyVal.hashable
  · obtain ⟨w', hw⟩ := find_isSome s3 s4
    simp [hall, hw]
  · simp [hall]

/-! Non-vacuity of C37: a pickle exists (a dump is the list of codes followed by a stop byte), so does
a family, and a history with a hit. -/

/-- C40 refuted: with two functions of the same name the second one gets the first one's result. -/
theorem C40_same_name_refuted (P : Pickle Num) (henc : ∀ d, (P.enc d).isSome) :
    ∃ (f g : Func Num), f.name = g.name ∧ Plain f.params ∧ Plain g.params ∧
      (runHist P FS.empty [.call f [] [], .call g [] []]).2.map (·.1) = [.value (.int 1), .value (.int 1)] ∧
      directHist [.call f [] [], .call g [] []] = [.value (.int 1), .value (.int 2)] := by
  refine ⟨⟨"f", [], fun _ => some (.int 1)⟩, ⟨"f", [], fun _ => some (.int 2)⟩, rfl, ?_, ?_, ?_, ?_⟩
  · intro p hp; simp at hp
  · intro p hp; simp at hp
  · obtain ⟨b, hb⟩ := Option.isSome_iff_exists.mp (henc [([], .int 1)])
    have hd := P.dec_enc _ b [] hb
    simp only [List.append_nil] at hd
    simp [runHist, call, pyBind, storeKey, FS.empty, hb, FS.set, hd, Dict.find, keyEq]
  · simp [directHist, direct, pyBind]

end Chords.Cache
