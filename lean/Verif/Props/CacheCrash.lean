import Verif.Lemmas.PickleEx

/-!
# Property theorems C39 and C41: crashes and concurrency of `store_results`

Executions are sequences of single file operations (`Reach`), by any number of processes.
-/

namespace Chords.Cache
open Spec
variable {V : Type} [PyVal V] {Pr : Type} [DecidableEq Pr]

/-- A legal call of a function of the family, with the key the wrapper builds. -/
def LegalReq (fam : Func V → Prop) (c : Req V) : Prop :=
  fam c.f ∧ ∃ a kw, (kw.map (·.1)).Nodup ∧ pyBind c.f.params a kw = some c.env ∧
    storeKey c.f.params a kw = some c.key

/-- The state before anything happened. -/
def init : State Pr V := ⟨FS.empty, fun _ => .idle, []⟩

/-- The outcome is what the undecorated function gives. -/
def RightOutcome (c : Req V) : Outcome V → Prop
  | .value v => c.f.body c.env = some v
  | .funcRaised => c.f.body c.env = none
  | _ => False

/-- If a value was returned, it is the right one; exceptions of the body are really its own. -/
def NotWrong (c : Req V) : Outcome V → Prop
  | .value v => c.f.body c.env = some v
  | .funcRaised => c.f.body c.env = none
  | _ => True

/-- Contents of a cache file that can only produce right answers. -/
def FileOk (pk : Pickle V) (f : Func V) (b : Bytes) : Prop :=
  pk.dec b = none ∨ ∃ d, pk.dec b = some d ∧ Right f d

/-- Knowledge attached to a program counter. -/
def PCOk (pk : Pickle V) (calls : Req V → Prop) : PC V → Prop
  | .idle => True
  | .checkDir c => calls c
  | .mkDir c => calls c
  | .checkFile c => calls c
  | .load c => calls c
  | .compute c d => calls c ∧ Right c.f d
  | .openW c d r => calls c ∧ Right c.f d ∧ c.f.body c.env = some r
  | .write c b k r => calls c ∧ (∃ d, pk.enc d = some b ∧ Right c.f d) ∧ c.f.body c.env = some r ∧
      k ≤ b.length

theorem right_find {fam : Func V → Prop} {c : Req V} (hc : LegalReq fam c) {d : Dict V}
    (hd : Right c.f d) {v : V} (h : d.find c.key = some v) : c.f.body c.env = some v := by
  obtain ⟨k, hm, he⟩ := find_some_mem h
  obtain ⟨-, a, kw, h1, h2, h3⟩ := hc
  exact hd k v hm a kw c.env c.key h1 h2 h3 he

theorem right_append {fam : Func V → Prop} (hfam : Family fam) {c : Req V} (hc : LegalReq fam c)
    {d : Dict V} (hd : Right c.f d) {r : V} (hr : c.f.body c.env = some r) :
    Right c.f (d ++ [(c.key, r)]) := by
  obtain ⟨h0, a, kw, h1, h2, h3⟩ := hc
  exact right_insert hfam h0 hd h1 h2 h3 hr

/-- Steps that do not touch files keep the "program counters are fine" part. -/
theorem pcok_set {pk : Pickle V} {calls : Req V → Prop} {pc : Pr → PC V}
    (h : ∀ p, PCOk pk calls (pc p)) (p : Pr) {x : PC V} (hx : PCOk pk calls x) :
    ∀ q, PCOk pk calls (setPC pc p x q) := by
  intro q
  unfold setPC
  split
  · exact hx
  · exact h q

theorem setPC_self (pc : Pr → PC V) (p : Pr) (x : PC V) : setPC pc p x p = x := by simp [setPC]

/-! ## C41 -/

/-- Invariant for concurrent processes whose dumps are single writes. -/
structure InvC (pk : Pickle V) (fam : Func V → Prop) (s : State Pr V) : Prop where
  files : ∀ f, fam f → ∀ b, s.fs.file f.name = some b →
    b = [] ∨ ∃ d b' rest, pk.enc d = some b' ∧ b = b' ++ rest ∧ Right f d
  pcs : ∀ p, PCOk pk (LegalReq fam) (s.pc p)
  whole : ∀ p c b k r, s.pc p = .write c b k r → k = 0 ∨ k = b.length
  log : ∀ c o, (c, o) ∈ s.log → NotWrong c o

theorem whole_set {pc : Pr → PC V}
    (h : ∀ p c b k r, pc p = .write c b k r → k = 0 ∨ k = b.length) (p : Pr) {x : PC V}
    (hx : ∀ c b k r, x = .write c b k r → k = 0 ∨ k = b.length) :
    ∀ q c b k r, setPC pc p x q = .write c b k r → k = 0 ∨ k = b.length := by
  intro q c b k r hq
  unfold setPC at hq
  split at hq
  · exact hx c b k r hq
  · exact h q c b k r hq

theorem log_cons {log : List (Req V × Outcome V)} {Q : Req V → Outcome V → Prop}
    (h : ∀ c o, (c, o) ∈ log → Q c o) {c : Req V} {o : Outcome V} (hx : Q c o) :
    ∀ c' o', (c', o') ∈ (c, o) :: log → Q c' o' := by
  intro c' o' hm
  rcases List.mem_cons.mp hm with hm | hm
  · simp only [Prod.mk.injEq] at hm
    obtain ⟨rfl, rfl⟩ := hm
    exact hx
  · exact h c' o' hm

theorem invC_step {pk : Pickle V} {fam : Func V → Prop} (hfam : Family fam) {crashOk : PC V → Prop}
    {s t : State Pr V} (h : InvC pk fam s) (st : Step pk (LegalReq fam) true crashOk s t) :
    InvC pk fam t := by
  have hp := h.pcs
  cases st with
  | start p c hc hpc =>
    exact ⟨h.files, pcok_set hp p hc, whole_set h.whole p (by intros; simp_all), h.log⟩
  | crash p hcr =>
    exact ⟨h.files, pcok_set hp p trivial, whole_set h.whole p (by intros; simp_all), h.log⟩
  | dirThere p c hpc hd =>
    have := hp p; rw [hpc] at this
    exact ⟨h.files, pcok_set hp p this, whole_set h.whole p (by intros; simp_all), h.log⟩
  | dirMissing p c hpc hd =>
    have := hp p; rw [hpc] at this
    exact ⟨h.files, pcok_set hp p this, whole_set h.whole p (by intros; simp_all), h.log⟩
  | mkDir p c hpc hd =>
    have := hp p; rw [hpc] at this
    exact ⟨h.files, pcok_set hp p this, whole_set h.whole p (by intros; simp_all), h.log⟩
  | mkDirFail p c hpc hd =>
    exact ⟨h.files, pcok_set hp p trivial, whole_set h.whole p (by intros; simp_all),
      log_cons h.log trivial⟩
  | fileThere p c hpc b hf =>
    have := hp p; rw [hpc] at this
    exact ⟨h.files, pcok_set hp p this, whole_set h.whole p (by intros; simp_all), h.log⟩
  | fileMissing p c hpc hf =>
    have := hp p; rw [hpc] at this
    exact ⟨h.files, pcok_set hp p ⟨this, right_nil c.f⟩, whole_set h.whole p (by intros; simp_all),
      h.log⟩
  | loadFail p c hpc b hf hb =>
    exact ⟨h.files, pcok_set hp p trivial, whole_set h.whole p (by intros; simp_all),
      log_cons h.log trivial⟩
  | loadHit p c hpc b d v hf hb hk =>
    have hc := hp p; rw [hpc] at hc
    refine ⟨h.files, pcok_set hp p trivial, whole_set h.whole p (by intros; simp_all),
      log_cons h.log ?_⟩
    rcases h.files c.f hc.1 b hf with rfl | ⟨d', b', rest, he, rfl, hR⟩
    · rw [pk.dec_nil] at hb; simp at hb
    · rw [pk.dec_enc _ _ _ he, Option.some.injEq] at hb
      subst hb
      exact right_find hc hR hk
  | loadMiss p c hpc b d hf hb hk =>
    have hc := hp p; rw [hpc] at hc
    refine ⟨h.files, pcok_set hp p ⟨hc, ?_⟩, whole_set h.whole p (by intros; simp_all), h.log⟩
    rcases h.files c.f hc.1 b hf with rfl | ⟨d', b', rest, he, rfl, hR⟩
    · rw [pk.dec_nil] at hb; simp at hb
    · rw [pk.dec_enc _ _ _ he, Option.some.injEq] at hb
      subst hb
      exact hR
  | computeOk p c d r hpc hr =>
    have hc := hp p; rw [hpc] at hc
    exact ⟨h.files, pcok_set hp p ⟨hc.1, right_append hfam hc.1 hc.2 hr, hr⟩,
      whole_set h.whole p (by intros; simp_all), h.log⟩
  | computeRaise p c d hpc hr =>
    exact ⟨h.files, pcok_set hp p trivial, whole_set h.whole p (by intros; simp_all),
      log_cons h.log hr⟩
  | openW p c d r b hpc hb =>
    have hc := hp p; rw [hpc] at hc
    refine ⟨?_, pcok_set hp p ⟨hc.1, ⟨d, hb, hc.2.1⟩, hc.2.2, Nat.zero_le _⟩,
      whole_set h.whole p ?_, h.log⟩
    · intro f hf b' hb'
      by_cases hn : f.name = c.f.name
      · simp only [FS.set, hn, if_true, Option.some.injEq] at hb'
        exact Or.inl hb'.symm
      · simp only [FS.set, hn, if_false] at hb'
        exact h.files f hf b' hb'
    · intro c' b' k' r' he
      simp only [PC.write.injEq] at he
      exact Or.inl he.2.2.1.symm
  | openFail p c d r hpc hb =>
    refine ⟨?_, pcok_set hp p trivial, whole_set h.whole p (by intros; simp_all),
      log_cons h.log trivial⟩
    intro f hf b' hb'
    by_cases hn : f.name = c.f.name
    · simp only [FS.set, hn, if_true, Option.some.injEq] at hb'
      exact Or.inl hb'.symm
    · simp only [FS.set, hn, if_false] at hb'
      exact h.files f hf b' hb'
  | write p c b k m r old hpc hk hm ha hf =>
    have hc := hp p; rw [hpc] at hc
    have hmb := ha rfl
    have hk0 : k = 0 := by
      rcases h.whole p c b k r hpc with h0 | h0
      · exact h0
      · omega
    subst hk0 hmb
    obtain ⟨hc1, ⟨d, he, hR⟩, hr, -⟩ := hc
    refine ⟨?_, pcok_set hp p ⟨hc1, ⟨d, he, hR⟩, hr, le_refl _⟩, whole_set h.whole p ?_, h.log⟩
    · intro f hf' b' hb'
      by_cases hn : f.name = c.f.name
      · have hfc := hfam.inj f c.f hf' hc1.1 hn
        simp only [FS.set, hn, if_true, Option.some.injEq] at hb'
        refine Or.inr ⟨d, b, old.drop b.length, he, ?_, hfc ▸ hR⟩
        rw [← hb']
        simp [overwrite]
      · simp only [FS.set, hn, if_false] at hb'
        exact h.files f hf' b' hb'
    · intro c' b' k' r' he'
      simp only [PC.write.injEq] at he'
      right
      rw [← he'.2.2.1, ← he'.2.1]
  | close p c b r hpc =>
    have hc := hp p; rw [hpc] at hc
    exact ⟨h.files, pcok_set hp p trivial, whole_set h.whole p (by intros; simp_all),
      log_cons h.log hc.2.2.1⟩

/-- C41, the part that holds.  Any number of processes, any interleaving of their file operations, any
crashes: as long as each dump reaches the file in a single write operation, no call ever returns a
wrong value (a call may raise, see `C41_refuted`). -/
theorem C41_partial (pk : Pickle V) (fam : Func V → Prop) (hfam : Family fam) (s : State Pr V)
    (hs : Reach pk (LegalReq fam) true (fun _ => True) init s) :
    ∀ c v, (c, Outcome.value v) ∈ s.log → c.f.body c.env = some v := by
  have : InvC pk fam s := by
    induction hs with
    | refl =>
      exact ⟨fun f _ b hb => by simp [init, FS.empty] at hb, fun _ => trivial,
        fun p c b k r hp => by simp [init] at hp, fun c o hm => by simp [init] at hm⟩
    | step _ st ih => exact invC_step hfam ih st
  intro c v hm
  exact this.log c _ hm

/-! ## C39 -/

/-- Invariant for one process that may crash at the points `crashOk`. -/
structure InvS (pk : Pickle V) (fam : Func V → Prop) (good : Prop) (s : State Unit V) : Prop where
  /-- Files that are not being written: answers right, and loadable if `good`. -/
  files : ∀ f, fam f → ∀ b, s.fs.file f.name = some b →
    (∃ d, pk.dec b = some d ∧ Right f d) ∨
      (pk.dec b = none ∧ (good → ∃ c b' k r, s.pc () = .write c b' k r ∧ c.f = f ∧ k < b'.length))
  pcs : PCOk pk (LegalReq fam) (s.pc ())
  writing : ∀ c b k r, s.pc () = .write c b k r → s.fs.file c.f.name = some (b.take k)
  loading : ∀ c, s.pc () = .load c → ∃ b, s.fs.file c.f.name = some b
  making : ∀ c, s.pc () = .mkDir c → s.fs.dir = false
  log : ∀ c o, (c, o) ∈ s.log → (good → RightOutcome c o) ∧ NotWrong c o

theorem take_overwrite (b : Bytes) (k m : Nat) (hk : k ≤ m) (hm : m ≤ b.length) :
    overwrite (b.take k) k ((b.drop k).take (m - k)) = b.take m := by
  have hl : (b.take k).length = k := by simp; omega
  have hl2 : ((b.drop k).take (m - k)).length = m - k := by simp; omega
  unfold overwrite
  rw [hl, hl2]
  have e1 : (b.take k).take k = b.take k := by simp
  have e2 : (b.take k).drop (k + (m - k)) = [] := by simp
  rw [e1, e2]
  simp only [Nat.sub_self, List.replicate_zero, List.append_nil]
  have : m = k + (m - k) := by omega
  conv_rhs => rw [this, List.take_add]

/-- A step that leaves the files alone and does not start from the middle of a write. -/
theorem invS_quiet {pk : Pickle V} {fam : Func V → Prop} {good : Prop} {s : State Unit V}
    (x : PC V) (fs' : FS)
    (h : InvS pk fam good s) (hw : good → ¬ (s.pc ()).inWrite)
    (hfs : fs'.file = s.fs.file) {p : Unit} (hx : PCOk pk (LegalReq fam) x)
    (hxw : ∀ c b k r, x ≠ .write c b k r)
    (hxl : ∀ c, x = .load c → ∃ b, s.fs.file c.f.name = some b)
    (hxm : ∀ c, x = .mkDir c → fs'.dir = false) {log : List (Req V × Outcome V)}
    (hlog : ∀ c o, (c, o) ∈ log → (good → RightOutcome c o) ∧ NotWrong c o) :
    InvS pk fam good ⟨fs', setPC s.pc p x, log⟩ := by
  refine ⟨?_, ?_, ?_, ?_, ?_, hlog⟩
  · intro f hf b hb
    rw [hfs] at hb
    rcases h.files f hf b hb with h1 | ⟨h1, h2⟩
    · exact Or.inl h1
    · refine Or.inr ⟨h1, fun hg => ?_⟩
      obtain ⟨c, b', k, r, e1, -, e3⟩ := h2 hg
      exact absurd (by rw [e1]; exact e3) (hw hg)
  · exact hx
  · intro c b k r e; exact absurd e (hxw c b k r)
  · intro c e; rw [hfs]; exact hxl c e
  · intro c e; exact hxm c e

theorem invS_step {pk : Pickle V} (henc : ∀ d, (pk.enc d).isSome) {fam : Func V → Prop}
    (hfam : Family fam) {good : Prop} {crashOk : PC V → Prop}
    (hcr : good → ∀ pc, crashOk pc → ¬ pc.inWrite)
    {s t : State Unit V} (h : InvS pk fam good s)
    (st : Step pk (LegalReq fam) false crashOk s t) : InvS pk fam good t := by
  have hp := h.pcs
  cases st with
  | start p c hc hpc =>
    exact invS_quiet (.checkDir c) s.fs h (fun _ => by rw [show s.pc () = _ from hpc]; exact id) rfl hc
      (by intro _ _ _ _ e; cases e) (by intro _ e; cases e) (by intro _ e; cases e) h.log
  | crash p hcp =>
    exact invS_quiet .idle s.fs h (fun hg => hcr hg _ hcp) rfl trivial
      (by intro _ _ _ _ e; cases e) (by intro _ e; cases e) (by intro _ e; cases e) h.log
  | dirThere p c hpc hd =>
    rw [show s.pc () = _ from hpc] at hp
    exact invS_quiet (.checkFile c) s.fs h (fun _ => by rw [show s.pc () = _ from hpc]; exact id) rfl hp
      (by intro _ _ _ _ e; cases e) (by intro _ e; cases e) (by intro _ e; cases e) h.log
  | dirMissing p c hpc hd =>
    rw [show s.pc () = _ from hpc] at hp
    exact invS_quiet (.mkDir c) s.fs h (fun _ => by rw [show s.pc () = _ from hpc]; exact id) rfl hp
      (by intro _ _ _ _ e; cases e) (by intro _ e; cases e) (fun _ _ => hd) h.log
  | mkDir p c hpc hd =>
    rw [show s.pc () = _ from hpc] at hp
    exact invS_quiet (.checkFile c) { s.fs with dir := true } h (fun _ => by rw [show s.pc () = _ from hpc]; exact id) rfl hp
      (by intro _ _ _ _ e; cases e) (by intro _ e; cases e) (by intro _ e; cases e) h.log
  | mkDirFail p c hpc hd =>
    have := h.making c hpc
    rw [hd] at this
    cases this
  | fileThere p c hpc b hf =>
    rw [show s.pc () = _ from hpc] at hp
    exact invS_quiet (.load c) s.fs h (fun _ => by rw [show s.pc () = _ from hpc]; exact id) rfl hp
      (by intro _ _ _ _ e; cases e) (by intro c' e; cases e; exact ⟨b, hf⟩)
      (by intro _ e; cases e) h.log
  | fileMissing p c hpc hf =>
    rw [show s.pc () = _ from hpc] at hp
    exact invS_quiet (.compute c []) s.fs h (fun _ => by rw [show s.pc () = _ from hpc]; exact id) rfl
      ⟨hp, right_nil c.f⟩
      (by intro _ _ _ _ e; cases e) (by intro _ e; cases e) (by intro _ e; cases e) h.log
  | loadFail p c hpc b hf hb =>
    rw [show s.pc () = _ from hpc] at hp
    refine invS_quiet .idle s.fs h (fun _ => by rw [show s.pc () = _ from hpc]; exact id) rfl trivial
      (by intro _ _ _ _ e; cases e) (by intro _ e; cases e) (by intro _ e; cases e)
      (log_cons h.log ⟨?_, trivial⟩)
    intro hg
    rcases h.files c.f hp.1 b hf with ⟨d, h1, -⟩ | ⟨-, h2⟩
    · rw [h1] at hb; cases hb
    · obtain ⟨c', b', k, r, e1, -, -⟩ := h2 hg
      rw [show s.pc () = _ from hpc] at e1; cases e1
  | loadHit p c hpc b d v hf hb hk =>
    rw [show s.pc () = _ from hpc] at hp
    have hv : c.f.body c.env = some v := by
      rcases h.files c.f hp.1 b hf with ⟨d', h1, h2⟩ | ⟨h1, -⟩
      · rw [h1, Option.some.injEq] at hb
        subst hb
        exact right_find hp h2 hk
      · rw [h1] at hb; cases hb
    exact invS_quiet .idle s.fs h (fun _ => by rw [show s.pc () = _ from hpc]; exact id) rfl trivial
      (by intro _ _ _ _ e; cases e) (by intro _ e; cases e) (by intro _ e; cases e)
      (log_cons h.log ⟨fun _ => hv, hv⟩)
  | loadMiss p c hpc b d hf hb hk =>
    rw [show s.pc () = _ from hpc] at hp
    have hR : Right c.f d := by
      rcases h.files c.f hp.1 b hf with ⟨d', h1, h2⟩ | ⟨h1, -⟩
      · rw [h1, Option.some.injEq] at hb
        subst hb
        exact h2
      · rw [h1] at hb; cases hb
    exact invS_quiet (.compute c d) s.fs h (fun _ => by rw [show s.pc () = _ from hpc]; exact id) rfl ⟨hp, hR⟩
      (by intro _ _ _ _ e; cases e) (by intro _ e; cases e) (by intro _ e; cases e) h.log
  | computeOk p c d r hpc hr =>
    rw [show s.pc () = _ from hpc] at hp
    have hR := right_append hfam hp.1 hp.2 hr
    exact invS_quiet (.openW c (d ++ [(c.key, r)]) r) s.fs h (fun _ => by rw [show s.pc () = _ from hpc]; exact id) rfl
      ⟨hp.1, hR, hr⟩
      (by intro _ _ _ _ e; cases e) (by intro _ e; cases e) (by intro _ e; cases e) h.log
  | computeRaise p c d hpc hr =>
    exact invS_quiet .idle s.fs h (fun _ => by rw [show s.pc () = _ from hpc]; exact id) rfl trivial
      (by intro _ _ _ _ e; cases e) (by intro _ e; cases e) (by intro _ e; cases e)
      (log_cons h.log ⟨fun _ => hr, hr⟩)
  | openW p c d r b hpc hb =>
    rw [hpc] at hp
    have hpos : 0 < b.length := by
      rcases Nat.eq_zero_or_pos b.length with h0 | h0
      · have : b = [] := List.length_eq_zero_iff.mp h0
        subst this
        have := pk.dec_enc d [] [] hb
        simp [pk.dec_nil] at this
      · exact h0
    refine ⟨?_, ?_, ?_, ?_, ?_, h.log⟩
    · intro f hf b' hb'
      by_cases hn : f.name = c.f.name
      · simp only [FS.set, hn, if_true, Option.some.injEq] at hb'
        subst hb'
        refine Or.inr ⟨pk.dec_nil, fun _ => ⟨c, b, 0, r, by simp [setPC], ?_, hpos⟩⟩
        exact (hfam.inj f c.f hf hp.1.1 hn).symm
      · simp only [FS.set, hn, if_false] at hb'
        rcases h.files f hf b' hb' with h1 | ⟨h1, h2⟩
        · exact Or.inl h1
        · refine Or.inr ⟨h1, fun hg => ?_⟩
          obtain ⟨c', b2, k', r', e1, -, -⟩ := h2 hg
          rw [show s.pc () = _ from hpc] at e1; cases e1
    · simp only [setPC, if_true, PCOk]
      exact ⟨hp.1, ⟨d, hb, hp.2.1⟩, hp.2.2, Nat.zero_le _⟩
    · intro c' b' k' r' he
      simp only [setPC, if_true, PC.write.injEq] at he
      obtain ⟨rfl, rfl, rfl, rfl⟩ := he
      simp [FS.set]
    · simp_all [setPC]
    · simp_all [setPC]
  | openFail p c d r hpc hb =>
    have := henc d
    simp [hb] at this
  | write p c b k m r old hpc hk hm ha hf =>
    rw [hpc] at hp
    obtain ⟨hc1, ⟨d, he, hR⟩, hr, hkl⟩ := hp
    have hold := h.writing c b k r hpc
    rw [hf, Option.some.injEq] at hold
    subst hold
    rw [take_overwrite b k m (by omega) hm]
    refine ⟨?_, ?_, ?_, ?_, ?_, h.log⟩
    · intro f hf' b' hb'
      by_cases hn : f.name = c.f.name
      · have hfc := hfam.inj f c.f hf' hc1.1 hn
        subst hfc
        simp only [FS.set, if_true, Option.some.injEq] at hb'
        subst hb'
        rcases Nat.lt_or_eq_of_le hm with hlt | rfl
        · exact Or.inr ⟨pk.dec_prefix d b m he hlt,
            fun _ => ⟨c, b, m, r, by simp [setPC], rfl, hlt⟩⟩
        · refine Or.inl ⟨d, ?_, hR⟩
          have := pk.dec_enc d b [] he
          simpa using this
      · simp only [FS.set, hn, if_false] at hb'
        rcases h.files f hf' b' hb' with h1 | ⟨h1, h2⟩
        · exact Or.inl h1
        · refine Or.inr ⟨h1, fun hg => ?_⟩
          obtain ⟨c', b2, k', r', e1, e2, e3⟩ := h2 hg
          rw [hpc] at e1
          simp only [PC.write.injEq] at e1
          rw [← e1.1] at e2
          rw [e2] at hn
          exact absurd rfl hn
    · simp only [setPC, if_true, PCOk]
      exact ⟨hc1, ⟨d, he, hR⟩, hr, hm⟩
    · intro c' b' k' r' he'
      simp only [setPC, if_true, PC.write.injEq] at he'
      obtain ⟨rfl, rfl, rfl, rfl⟩ := he'
      simp [FS.set]
    · simp_all [setPC]
    · simp_all [setPC]
  | close p c b r hpc =>
    rw [hpc] at hp
    exact invS_quiet .idle s.fs h (fun _ => by rw [show s.pc () = _ from hpc]; exact Nat.lt_irrefl _) rfl trivial
      (by intro _ _ _ _ e; cases e) (by intro _ e; cases e) (by intro _ e; cases e)
      (log_cons h.log ⟨fun _ => hp.2.2.1, hp.2.2.1⟩)

theorem invS_init {pk : Pickle V} {fam : Func V → Prop} {good : Prop} :
    InvS pk fam good (init : State Unit V) :=
  ⟨fun f _ b hb => by simp [init, FS.empty] at hb, trivial, fun c b k r hp => by simp [init] at hp,
    fun c hp => by simp [init] at hp, fun c hp => by simp [init] at hp,
    fun c o hm => by simp [init] at hm⟩

/-- C39, the part that holds (1).  One process at a time, killed any number of times at arbitrary
points *outside* the window between truncating the cache file and the last byte of the dump: every
call that finishes gives exactly what the undecorated function gives (right value, or its own
exception), forever. -/
theorem C39_crash_outside_write_partial (pk : Pickle V) (henc : ∀ d, (pk.enc d).isSome)
    (fam : Func V → Prop) (hfam : Family fam) (s : State Unit V)
    (hs : Reach pk (LegalReq fam) false (fun pc => ¬ pc.inWrite) init s) :
    ∀ c o, (c, o) ∈ s.log → RightOutcome c o := by
  have : InvS pk fam True s := by
    induction hs with
    | refl => exact invS_init
    | step _ st ih => exact invS_step henc hfam (fun _ _ h => h) ih st
  exact fun c o hm => (this.log c o hm).1 trivial

/-- C39, the part that holds (2).  Killed at *any* point: no later call ever returns a wrong value. -/
theorem C39_never_wrong_partial (pk : Pickle V) (henc : ∀ d, (pk.enc d).isSome)
    (fam : Func V → Prop) (hfam : Family fam) (s : State Unit V)
    (hs : Reach pk (LegalReq fam) false (fun _ => True) init s) :
    ∀ c v, (c, Outcome.value v) ∈ s.log → c.f.body c.env = some v := by
  have : InvS pk fam False s := by
    induction hs with
    | refl => exact invS_init
    | step _ st ih => exact invS_step henc hfam (fun h => h.elim) ih st
  exact fun c v hm => (this.log c _ hm).2

/-- A cache file that cannot be loaded is never repaired: every later legal call of that function with
hashable arguments raises, whatever other calls and restarts happen in between. -/
theorem C39_broken_forever (P : Pickle V) (fs : FS) (f : Func V) (b : Bytes)
    (hb : fs.file f.name = some b) (hd : P.dec b = none) (h : List (Event V))
    (a : List V) (kw : List (String × V)) (env) (he : pyBind f.params a kw = some env)
    (key : List V) (hk : storeKey f.params a kw = some key) :
    (runHist P fs (h ++ [.call f a kw])).2.getLast? = some (.loadError, false) := by
  rw [runHist_append]
  have keep : ∀ (h : List (Event V)) (fs : FS), fs.file f.name = some b →
      (runHist P fs h).1.file f.name = some b := by
    intro h
    induction h with
    | nil => intro fs hfs; exact hfs
    | cons e h ih =>
      intro fs hfs
      cases e with
      | restart => exact ih fs hfs
      | call g a' k' =>
        refine ih _ ?_
        by_cases hn : g.name = f.name
        · unfold call
          cases pyBind g.params a' k' with
          | none => exact hfs
          | some e' =>
            cases storeKey g.params a' k' with
            | none => exact hfs
            | some key' => simp [hn, hfs, hd]
        · unfold call
          cases pyBind g.params a' k' with
          | none => exact hfs
          | some e' =>
            cases storeKey g.params a' k' with
            | none => exact hfs
            | some key' =>
              have hne : ¬ f.name = g.name := fun h => hn h.symm
              dsimp only
              repeat' split
              all_goals first
                | exact hfs
                | simp [FS.set, hne, hfs]
  have := keep h fs hb
  simp only [runHist, List.getLast?_append, List.getLast?_singleton, Option.some_or]
  unfold call
  simp [he, hk, this, hd]

/-! ## The two models agree -/

theorem Reach.trans {pk : Pickle V} {calls : Req V → Prop} {at' : Bool} {cr : PC V → Prop}
    {s t u : State Pr V} (h : Reach pk calls at' cr s t) (h' : Reach pk calls at' cr t u) :
    Reach pk calls at' cr s u := by
  induction h' with
  | refl => exact h
  | step _ st ih => exact ih.step st

theorem setPC_setPC (pc : Pr → PC V) (p : Pr) (x y : PC V) :
    setPC (setPC pc p x) p y = setPC pc p y := by
  funext q; unfold setPC; split <;> rfl

/-- From "before computing" to the end of the call. -/
theorem finish_reach {pk : Pickle V} {calls : Req V → Prop} {at' : Bool} {cr : PC V → Prop}
    (s : State Pr V) (p : Pr) (c : Req V) (d : Dict V) (h : s.pc p = .compute c d) :
    Reach pk calls at' cr s (match c.f.body c.env with
      | none => ⟨s.fs, setPC s.pc p .idle, (c, .funcRaised) :: s.log⟩
      | some r => match pk.enc (d ++ [(c.key, r)]) with
        | none => ⟨s.fs.set c.f.name [], setPC s.pc p .idle, (c, .pickleError) :: s.log⟩
        | some b => ⟨s.fs.set c.f.name b, setPC s.pc p .idle, (c, .value r) :: s.log⟩) := by
  cases hr : c.f.body c.env with
  | none => exact Reach.refl.step (.computeRaise s p c d h hr)
  | some r =>
    have r1 := (Reach.refl (pk := pk) (calls := calls) (atomic := at') (crashOk := cr)).step
      (.computeOk s p c d r h hr)
    cases he : pk.enc (d ++ [(c.key, r)]) with
    | none =>
      have r2 := r1.step (.openFail _ p c _ r (setPC_self _ _ _) he)
      simpa only [setPC_setPC, he] using r2
    | some b =>
      have hpos : 0 < b.length := by
        rcases Nat.eq_zero_or_pos b.length with h0 | h0
        · have : b = [] := List.length_eq_zero_iff.mp h0
          subst this
          have := pk.dec_enc _ [] [] he
          simp [pk.dec_nil] at this
        · exact h0
      have r2 := r1.step (.openW _ p c _ r b (setPC_self _ _ _) he)
      have r3 := r2.step (.write _ p c b 0 b.length r [] (setPC_self _ _ _) hpos (le_refl _)
        (fun _ => rfl) (by simp [FS.set]))
      have r4 := r3.step (.close _ p c b r (setPC_self _ _ _))
      have e : ((s.fs.set c.f.name []).set c.f.name
          (overwrite [] 0 (List.take (b.length - 0) (List.drop 0 b)))) = s.fs.set c.f.name b := by
        have : overwrite [] 0 (List.take (b.length - 0) (List.drop 0 b)) = b := by simp [overwrite]
        rw [this]
        unfold FS.set
        congr 1
        funext m
        simp only
        split <;> simp_all
      simpa only [setPC_setPC, e, he] using r4

/-- Running the file operations of one call without interruption gives what the big-step model `call`
says: same files, same outcome. -/
theorem call_refines (pk : Pickle V) (calls : Req V → Prop) (at' : Bool) (cr : PC V → Prop)
    (s : State Pr V) (p : Pr) (hp : s.pc p = .idle) (c : Req V) (hc : calls c)
    (a : List V) (kw : List (String × V)) (hb : pyBind c.f.params a kw = some c.env)
    (hk : storeKey c.f.params a kw = some c.key) (hh : c.key.all PyVal.hashable = true) :
    Reach pk calls at' cr s ⟨(call pk s.fs c.f a kw).1, s.pc,
      (c, (call pk s.fs c.f a kw).2.1) :: s.log⟩ := by
  have idle1 : setPC s.pc p .idle = s.pc := by
    funext q
    unfold setPC
    split
    · rename_i h; rw [h, hp]
    · rfl
  have r1 := (Reach.refl (pk := pk) (calls := calls) (atomic := at') (crashOk := cr)).step
    (.start s p c hc hp)
  have r2 : Reach pk calls at' cr s ⟨{ s.fs with dir := true }, setPC s.pc p (.checkFile c), s.log⟩ := by
    cases hd : s.fs.dir with
    | true =>
      have := r1.step (.dirThere _ p c (setPC_self _ _ _) hd)
      rw [show ({ s.fs with dir := true } : FS) = s.fs by rw [← hd]]
      simpa only [setPC_setPC] using this
    | false =>
      have := (r1.step (.dirMissing _ p c (setPC_self _ _ _) hd)).step
        (.mkDir _ p c (setPC_self _ _ _) hd)
      simpa only [setPC_setPC] using this
  unfold call
  simp only [hb, hk, hh, if_true]
  cases hfile : s.fs.file c.f.name with
  | none =>
    have r3 := r2.step (.fileMissing _ p c (setPC_self _ _ _) hfile)
    have r4 := r3.trans (finish_reach _ p c [] (setPC_self _ _ _))
    simp only [setPC_setPC, idle1] at r4
    cases hr : c.f.body c.env with
    | none => simpa only [hr] using r4
    | some r =>
      simp only [hr] at r4
      cases he : pk.enc ([] ++ [(c.key, r)]) with
      | none => simpa only [he] using r4
      | some b => simpa only [he] using r4
  | some bytes =>
    have r3 := r2.step (.fileThere _ p c (setPC_self _ _ _) bytes hfile)
    dsimp only
    cases hd : pk.dec bytes with
    | none =>
      have r4 := r3.step (.loadFail _ p c (setPC_self _ _ _) bytes hfile hd)
      simpa only [setPC_setPC, idle1] using r4
    | some d =>
      dsimp only
      cases hf : Dict.find c.key d with
      | some v =>
        have r4 := r3.step (.loadHit _ p c (setPC_self _ _ _) bytes d v hfile hd hf)
        simpa only [setPC_setPC, idle1] using r4
      | none =>
        have r4 := r3.step (.loadMiss _ p c (setPC_self _ _ _) bytes d hfile hd hf)
        have r5 := r4.trans (finish_reach _ p c d (setPC_self _ _ _))
        simp only [setPC_setPC, idle1] at r5
        cases hr : c.f.body c.env with
        | none => simpa only [hr] using r5
        | some r =>
          simp only [hr] at r5
          cases he : pk.enc (d ++ [(c.key, r)]) with
          | none => simpa only [he] using r5
          | some b => simpa only [he] using r5

/-! ## Refutations -/

/-- The request `f(1)` of the example function. -/
def exReq : Req Num := ⟨exFunc, [("a", .one (.int 1)), ("b", .one (.int 5))], [.int 1, .int 5]⟩

theorem exReq_legal : LegalReq (fun f => f = exFunc) exReq :=
  ⟨rfl, [.int 1], [], by decide, rfl, rfl⟩

theorem exReq_body : exFunc.body exReq.env = some (.int 6) := rfl

/-- First part of every execution below: process `p` starts, creates the directory, finds no file,
computes and truncates the file. -/
theorem ex_prefix {crashOk : PC Num → Prop} {at' : Bool} (p : Pr) : ∃ b, exPickle.enc [([.int 1, .int 5], .int 6)] = some b ∧
    ∃ s : State Pr Num, Reach exPickle (LegalReq (fun f => f = exFunc)) at' crashOk init s ∧
      s.pc p = .write exReq b 0 (.int 6) ∧ (∀ q, q ≠ p → s.pc q = .idle) ∧
      s.fs.file "f" = some [] ∧ s.fs.dir = true ∧ s.log = [] := by
  refine ⟨_, rfl, ?_⟩
  have r0 := Reach.refl (pk := exPickle) (calls := LegalReq (fun f => f = exFunc)) (atomic := at')
    (crashOk := crashOk) (s₀ := (init : State Pr Num))
  have r1 := r0.step (.start _ p exReq exReq_legal rfl)
  have r2 := r1.step (.dirMissing _ p exReq (setPC_self _ _ _) rfl)
  have r3 := r2.step (.mkDir _ p exReq (setPC_self _ _ _) rfl)
  have r4 := r3.step (.fileMissing _ p exReq (setPC_self _ _ _) rfl)
  have r5 := r4.step (.computeOk _ p exReq [] (.int 6) (setPC_self _ _ _) rfl)
  have r6 := r5.step (.openW _ p exReq _ (.int 6) _ (setPC_self _ _ _) rfl)
  refine ⟨_, r6, setPC_self _ _ _, ?_, ?_, rfl, rfl⟩
  · intro q hq
    simp [setPC, hq, init]
  · rfl

/-- C39 is false: the process is killed right after `open(fpath, "wb")` truncated the file; the next
call of the same function raises instead of returning the value. -/
theorem C39_refuted : ∃ s : State Unit Num,
    Reach exPickle (LegalReq (fun f => f = exFunc)) false (fun _ => True) init s ∧
    (exReq, Outcome.loadError) ∈ s.log := by
  obtain ⟨b, hb, s, hr, h1, h2, h3, h4, h5⟩ := ex_prefix (Pr := Unit) (at' := false)
    (crashOk := fun _ => True) ()
  have r1 := hr.step (.crash _ () trivial)
  have r2 := r1.step (.start _ () exReq exReq_legal (by simp [setPC]))
  have r3 := r2.step (.dirThere _ () exReq (by simp [setPC]) h4)
  have r4 := r3.step (.fileThere _ () exReq (by simp [setPC]) [] h3)
  have r5 := r4.step (.loadFail _ () exReq (by simp [setPC]) [] h3 exPickle.dec_nil)
  exact ⟨_, r5, List.mem_cons_self ..⟩

/-- C41 is false even without crashes and with single-write dumps: a second process that looks while
the first one is between truncation and write gets an exception. -/
theorem C41_refuted : ∃ s : State Bool Num,
    Reach exPickle (LegalReq (fun f => f = exFunc)) true (fun _ => False) init s ∧
    (exReq, Outcome.loadError) ∈ s.log := by
  obtain ⟨b, hb, s, hr, h1, h2, h3, h4, h5⟩ := ex_prefix (Pr := Bool) (at' := true)
    (crashOk := fun _ => False) true
  have r2 := hr.step (.start _ false exReq exReq_legal (h2 false (by decide)))
  have r3 := r2.step (.dirThere _ false exReq (by simp [setPC]) h4)
  have r4 := r3.step (.fileThere _ false exReq (by simp [setPC]) [] h3)
  have r5 := r4.step (.loadFail _ false exReq (by simp [setPC]) [] h3 exPickle.dec_nil)
  exact ⟨_, r5, List.mem_cons_self ..⟩

/-- C41 also fails on a fresh directory: both processes see no `func_results`, the second `makedirs`
raises. -/
theorem C41_makedirs_refuted : ∃ s : State Bool Num,
    Reach exPickle (LegalReq (fun f => f = exFunc)) true (fun _ => False) init s ∧
    (exReq, Outcome.fileExistsError) ∈ s.log := by
  have r0 := Reach.refl (pk := exPickle) (calls := LegalReq (fun f => f = exFunc)) (atomic := true)
    (crashOk := fun _ => False) (s₀ := (init : State Bool Num))
  have r1 := r0.step (.start _ true exReq exReq_legal rfl)
  have r2 := r1.step (.start _ false exReq exReq_legal rfl)
  have r3 := r2.step (.dirMissing _ true exReq rfl rfl)
  have r4 := r3.step (.dirMissing _ false exReq rfl rfl)
  have r5 := r4.step (.mkDir _ true exReq rfl rfl)
  have r6 := r5.step (.mkDirFail _ false exReq rfl rfl)
  exact ⟨_, r6, List.mem_cons_self ..⟩

/-- Non-vacuity of the C39/C41 theorems: an execution in which the call finishes with its value. -/
example : ∃ s : State Unit Num,
    Reach exPickle (LegalReq (fun f => f = exFunc)) false (fun pc => ¬ pc.inWrite) init s ∧
    (exReq, Outcome.value (.int 6)) ∈ s.log := by
  obtain ⟨b, hb, s, hr, h1, h2, h3, h4, h5⟩ := ex_prefix (Pr := Unit) (at' := false)
    (crashOk := fun pc => ¬ pc.inWrite) ()
  have hl : 0 < b.length := by
    simp only [exPickle, Option.some.injEq] at hb
    subst hb
    simp
  have r1 := hr.step (.write _ () exReq b 0 b.length (.int 6) [] h1 hl (le_refl _) (fun _ => rfl) h3)
  have r2 := r1.step (.close _ () exReq b (.int 6) (by simp [setPC]))
  exact ⟨_, r2, List.mem_cons_self ..⟩

end Chords.Cache
