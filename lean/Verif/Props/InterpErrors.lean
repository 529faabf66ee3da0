import Verif.Props.EquiInterp
import Verif.Props.BuTdErr

/-! C117, C118: the errors of an interpolated result. -/

namespace Chords.Props
open Chords.Interp Chords.PsInterp Chords.BuTdInterp Chords.DynErr Chords.Problem Chords.Interpolation Chords.Bary Chords.TimeScale Polynomial
open Chords.Points hiding Shape
open Chords.Spec (Shape SchemeIs)

/-! ## Lemmas -/

theorem hcats_holds {n n_q : ℕ} (hq : 1 ≤ n_q) : ∀ (l : List Arr2) (G : ℕ → ℕ → ℕ → ℝ), l ≠ [] →
    (∀ k a, l[k]? = some a → Holds n n_q (G k) a) →
    ∃ r, hcats l = .ok r ∧ Holds n (l.length * n_q) (fun i c => G (c / n_q) i (c % n_q)) r := by
  intro l
  induction l with
  | nil => intro G h; exact absurd rfl h
  | cons a l ih =>
    intro G _ hG
    have ha := hG 0 a rfl
    cases l with
    | nil =>
      obtain ⟨a1, a2, a3⟩ := ha
      refine ⟨a, rfl, by simp [a1], a2, fun i hi c hc => ?_⟩
      have hc : c < n_q := by simpa using hc
      dsimp only
      rw [a3 i hi c hc, Nat.div_eq_of_lt hc, Nat.mod_eq_of_lt hc]
    | cons b l =>
      obtain ⟨r, r1, r2⟩ := ih (fun k => G (k + 1)) (by simp) (fun k c hk => hG (k + 1) c (by simpa using hk))
      have hh := hcat_holds ha r2
      refine ⟨hcat a r, ?_, ?_⟩
      · rw [hcats, r1]
        simp only [bind, Except.bind, pure, Except.pure]
        rw [if_pos (ha.2.1.trans r2.2.1.symm)]
      · obtain ⟨h1, h2, h3⟩ := hh
        refine ⟨by rw [h1]; simp only [List.length_cons]; ring, h2, fun i hi c hc => ?_⟩
        rw [h3 i hi c (by simp only [List.length_cons] at hc ⊢; linarith [add_mul (l.length + 1) 1 n_q])]
        dsimp only
        split_ifs with h
        · rw [Nat.div_eq_of_lt h, Nat.mod_eq_of_lt h]
        · obtain ⟨c', rfl⟩ : ∃ c', c = n_q + c' := ⟨c - n_q, by omega⟩
          rw [Nat.add_sub_cancel_left, Nat.add_div_left _ (by omega), Nat.add_mod_left]

theorem f_plain : ∀ c ∈ ("f" : String).toList, c ≠ '_' := by decide
theorem q_plain : ∀ c ∈ ("q" : String).toList, c ≠ '_' := by decide

theorem q_first (p : ℕ) : (qAndDersNames p)[0]? = some "q" := (C59_names p).2.2.2 0 "q" (by omega) rfl

/-- The arrays of the derivatives of `q`. -/
theorem distributed_q {p n n_q : ℕ} {g : ℕ → ℕ → ℕ → ℝ} {d : Arrays} (hd : Distributed p n n_q g d) (hp : 1 ≤ p) {ii : ℕ}
    (hi : ii ≤ p) : ∃ a, d.get (dName "q" ii) = some a ∧ Holds n n_q (fun i c => g ii i c) a := by
  obtain ⟨name, a, a1, a2, a3⟩ := hd.block ii 0 (by omega)
  rw [q_first] at a1
  cases a1
  exact ⟨a, a2, by simpa using a3⟩

theorem find_mapped {A B : Type} (l : List A) (key : A → String) (val : A → B) (k : A) (hk : k ∈ l)
    (hinj : ∀ a ∈ l, key a = key k → a = k) :
    ((l.map fun a => (key a, val a)).find? fun e => e.1 == key k).map (·.2) = some (val k) := by
  induction l with
  | nil => simp at hk
  | cons a l ih =>
    rw [List.map_cons, List.find?_cons]
    by_cases h : key a = key k
    · have := hinj a (by simp) h
      subst this
      simp
    · have hne : (key a == key k) = false := by simpa using h
      simp only [hne]
      refine ih ?_ fun b hb => hinj b (by simp [hb])
      rcases List.mem_cons.1 hk with rfl | hk
      · exact absurd rfl h
      · exact hk

theorem compat_key_inj {i j : ℕ} (h : "compat_err_" ++ toString i ++ "_interp" = "compat_err_" ++ toString j ++ "_interp") :
    i = j := by
  have h1 := congrArg String.toList h
  simp only [String.toList_append] at h1
  have h2 := List.append_cancel_left (List.append_cancel_right h1)
  exact Nat.repr_injective (String.toList_injective h2)

theorem compat_ne_dyn (i : ℕ) : "compat_err_" ++ toString i ++ "_interp" ≠ "dyn_err_interp" := by
  intro h
  have h1 := congrArg (fun s : String => s.toList.head?) h
  simp only [String.toList_append, List.append_assoc] at h1
  rw [show ("compat_err_" : String).toList = 'c' :: ("ompat_err_" : String).toList by decide, List.cons_append,
    List.head?_cons, show ("dyn_err_interp" : String).toList.head? = some 'd' by decide] at h1
  exact absurd h1 (by decide)

/-! ## C117 -/

/-- The state that is given to the dynamics. In mode "q" it is built from the derivatives of the coordinates, and in mode
"x" it is the interpolated state. -/
noncomputable def stateIn (mode : String) (n_q : ℕ) (g : ℕ → ℕ → ℕ → ℝ) (i : ℕ) : Row := fun c =>
  if mode = "q" then g (c / n_q) i (c % n_q) else g 0 i c

/-- C117: with both modes, for every dictionary with the promised arrays, the dynamic error is the highest derivative of the
coordinates minus the last part of the dynamics, and the compatibility error of order `k` is the derivative of order `k` of
the coordinates minus the block `k` of the state. The values of the dynamics are added to the dictionary, which keeps
everything else. -/
theorem C117 {p n n_q : ℕ} (hp : 1 ≤ p) (hq : 1 ≤ n_q) {g : ℕ → ℕ → ℕ → ℝ} {d : Arrays} (hd : Distributed p n n_q g d)
    {u : Arr2} (hu : d.get "u" = some u) (lists : List (String × List Arr2)) {F : Row → Row → Row} (hF : Reads (p * n_q) F)
    {mode : String} (hm : mode = "q" ∨ mode = "x") :
    ∃ errs f dyn, errorsFromInterp ⟨d, lists⟩ F mode p = .ok (errs, ⟨d.set "f" f, lists⟩) ∧
      Holds n n_q (fun i c => F (stateIn mode n_q g i) (rows u.rows i) (n_q * (p - 1) + c)) f ∧
      Arrays.get errs "dyn_err_interp" = some dyn ∧
      Holds n n_q (fun i c => g p i c - F (stateIn mode n_q g i) (rows u.rows i) (n_q * (p - 1) + c)) dyn ∧
      errs.keys = "dyn_err_interp" :: (List.range (p - 1)).map (fun k => "compat_err_" ++ toString (k + 1) ++ "_interp") ∧
      ∀ k, 1 ≤ k → k < p → ∃ e, Arrays.get errs ("compat_err_" ++ toString k ++ "_interp") = some e ∧
        Holds n n_q (fun i c => g k i c - g 0 i (n_q * k + c)) e := by
  have hqs : ∀ ii, ∃ a, ii ≤ p → d.get (dName "q" ii) = some a ∧ Holds n n_q (fun i c => g ii i c) a := by
    intro ii
    by_cases h : ii ≤ p
    · obtain ⟨a, ha⟩ := distributed_q hd hp h
      exact ⟨a, fun _ => ha⟩
    · exact ⟨⟨0, []⟩, fun h' => absurd h' h⟩
  choose A hA using hqs
  have hbs : ∀ k, ∃ name a, 1 ≤ k → k < p → (qAndDersNames p)[k]? = some name ∧ d.get name = some a ∧ name ≠ "f" ∧
      Holds n n_q (fun i c => g 0 i (n_q * k + c)) a := by
    intro k
    by_cases h : k < p
    · obtain ⟨name, a, a1, a2, a3⟩ := hd.block 0 k (by omega)
      rw [dName_zero] at a2
      refine ⟨name, a, fun _ _ => ⟨a1, a2, ?_, a3⟩⟩
      rintro rfl
      exact (names_plain (List.mem_of_getElem? a1)).2 (by simp)
    · exact ⟨"", ⟨0, []⟩, fun _ h' => absurd h' h⟩
  choose NM B hB using hbs
  obtain ⟨x, x1, x2⟩ := hd.whole 0 (by omega)
  rw [dName_zero] at x1
  have hl : (List.range p).mapM (fun ii => need (d.get (dName "q" ii))) = .ok ((List.range p).map A) :=
    Exc.mapM_eq fun ii hi => by
      rw [(hA ii (by have := List.mem_range.1 hi; omega)).1]
      rfl
  obtain ⟨qd, q1, q2⟩ := hcats_holds hq ((List.range p).map A) g (by
      intro h; have := congrArg List.length h; simp at this; omega) (by
    intro k a hk
    rw [List.getElem?_map] at hk
    obtain ⟨k', h1, rfl⟩ := Option.map_eq_some_iff.1 hk
    obtain ⟨h2, h3⟩ := List.getElem?_eq_some_iff.1 h1
    simp at h2 h3
    subst h3
    exact (hA k (by omega)).2)
  rw [List.length_map, List.length_range] at q2
  obtain ⟨xin, y1, y2⟩ : ∃ xin, (mode = "q" ∧ xin = qd ∨ mode = "x" ∧ xin = x) ∧
      Holds n (p * n_q) (stateIn mode n_q g) xin := by
    rcases hm with rfl | rfl
    · exact ⟨qd, Or.inl ⟨rfl, rfl⟩, by
        unfold stateIn; simp only [if_true]; exact q2⟩
    · refine ⟨x, Or.inr ⟨rfl, rfl⟩, ?_⟩
      unfold stateIn
      simp only [show ("x" : String) ≠ "q" by decide, if_false]
      exact x2
  have hdiv : p * n_q / p = n_q := Nat.mul_div_cancel_left _ (by omega)
  have hoff : (if n_q = 0 then 0 else p * n_q - n_q) = n_q * (p - 1) := by
    rw [if_neg (by omega), Nat.mul_sub, Nat.mul_one, Nat.mul_comm]
  obtain ⟨f, hf⟩ : ∃ f : Arr2, f = ⟨n_q, (List.range n).map fun ii => lastOf (p * n_q) n_q (F (rows xin.rows ii) (rows u.rows ii))⟩ :=
    ⟨_, rfl⟩
  have hfh : Holds n n_q (fun i c => F (stateIn mode n_q g i) (rows u.rows i) (n_q * (p - 1) + c)) f := by
    refine ⟨by rw [hf], by rw [hf]; simp, fun i hi c _ => ?_⟩
    rw [hf]
    dsimp only
    rw [show rows ((List.range n).map fun ii => lastOf (p * n_q) n_q (F (rows xin.rows ii) (rows u.rows ii))) i c
      = lastOf (p * n_q) n_q (F (rows xin.rows i) (rows u.rows i)) c by simp [rows, hi], lastOf, hoff,
      hF _ (stateIn mode n_q g i) _ fun c hc => y2.2.2 i hi c hc]
  have hqf : ∀ k, dName "q" k ≠ "f" := fun k h => by
    have := (dName_inj q_plain f_plain (h.trans (dName_zero "f").symm)).1
    exact absurd this (by decide)
  have hset : ∀ k ≤ p, (d.set "f" f).get (dName "q" k) = some (A k) := fun k hk => by
    rw [get_set, if_neg (hqf k), (hA k hk).1]
  obtain ⟨dyn, d1, d2, d3, d4⟩ := bSub_ok (hA p le_rfl).2.1 hfh.1 (hA p le_rfl).2.2.1 hfh.2.1
  have hes : ∀ k, ∃ e, 1 ≤ k → k < p → bSub (A k) (B k) = .ok e ∧ Holds n n_q (fun i c => g k i c - g 0 i (n_q * k + c)) e := by
    intro k
    by_cases h : 1 ≤ k ∧ k < p
    · obtain ⟨-, -, -, hb⟩ := hB k h.1 h.2
      obtain ⟨e, e1, e2, e3, e4⟩ := bSub_ok (hA k h.2.le).2.1 hb.1 (hA k h.2.le).2.2.1 hb.2.1
      refine ⟨e, fun _ _ => ⟨e1, e2, e3, fun i hi c hc => ?_⟩⟩
      rw [e4 i hi c hc, (hA k h.2.le).2.2.2 i hi c hc, hb.2.2 i hi c hc]
    · exact ⟨⟨0, []⟩, fun h1 h2 => absurd ⟨h1, h2⟩ h⟩
  choose E hE using hes
  have hcompat : (List.range (p - 1)).mapM (fun jj => do
      let a ← need ((d.set "f" f).get (dName "q" (jj + 1)))
      let name ← getE (qAndDersNames p) (jj + 1)
      let b ← need ((d.set "f" f).get name)
      let e ← bSub a b
      return ("compat_err_" ++ toString (jj + 1) ++ "_interp", e))
      = .ok ((List.range (p - 1)).map fun jj => ("compat_err_" ++ toString (jj + 1) ++ "_interp", E (jj + 1))) := by
    refine Exc.mapM_eq fun jj hj => ?_
    have hj : jj < p - 1 := List.mem_range.1 hj
    obtain ⟨b1, b2, b3, -⟩ := hB (jj + 1) (by omega) (by omega)
    have e1 := (hE (jj + 1) (by omega) (by omega)).1
    simp only [hset (jj + 1) (by omega), need, getE, b1, get_set, if_neg b3, b2, e1, bind, Except.bind, pure, Except.pure]
  refine ⟨("dyn_err_interp", dyn) :: (List.range (p - 1)).map fun jj =>
    ("compat_err_" ++ toString (jj + 1) ++ "_interp", E (jj + 1)), f, dyn, ?_, hfh, ?_, ⟨d2, d3, fun i hi c hc => ?_⟩, ?_, fun k hk1 hk2 => ⟨E k, ?_, (hE k hk1 hk2).2⟩⟩
  · have ok : ∀ {A B : Type} (a : A) (k : A → Except PsErr B), (Except.ok a >>= k) = k a := fun _ _ => rfl
    have nd : ∀ {A : Type} (a : A), need (some a) = .ok a := fun _ => rfl
    simp only [errorsFromInterp, hl, ok, q1]
    rcases y1 with ⟨rfl, rfl⟩ | ⟨rfl, rfl⟩
    · simp only [if_true, ok, hu, x1, nd, x2.1, x2.2.1, hdiv, Nat.mul_mod_right, not_true, if_false, ← hf, hset p le_rfl, d1,
        hcompat]
      rfl
    · simp only [if_true, ok, hu, x1, nd, x2.1, x2.2.1, hdiv, Nat.mul_mod_right, not_true, if_false, ← hf, hset p le_rfl, d1,
        hcompat, show ("x" : String) ≠ "q" by decide]
      rfl
  · simp [Arrays.get]
  · rw [d4 i hi c hc, (hA p le_rfl).2.2.2 i hi c hc, hfh.2.2 i hi c hc]
  · simp [Arrays.keys, Function.comp_def]
  · unfold Arrays.get
    rw [List.find?_cons]
    have hne : ("dyn_err_interp" == "compat_err_" ++ toString k ++ "_interp") = false := by
      simpa using fun h => compat_ne_dyn k h.symm
    simp only [hne]
    have := find_mapped (List.range (p - 1)) (fun jj => "compat_err_" ++ toString (jj + 1) ++ "_interp") (fun jj => E (jj + 1))
      (k - 1) (List.mem_range.2 (by omega)) (fun a _ h => by have := compat_key_inj h; omega)
    rwa [show k - 1 + 1 = k by omega] at this

/-- C117: any other mode is refused. -/
theorem C117_mode {p n n_q : ℕ} (hp : 1 ≤ p) (hq : 1 ≤ n_q) {g : ℕ → ℕ → ℕ → ℝ} {d : Arrays} (hd : Distributed p n n_q g d)
    (lists : List (String × List Arr2)) (F : Row → Row → Row) {mode : String} (hm : mode ≠ "q" ∧ mode ≠ "x") :
    errorsFromInterp ⟨d, lists⟩ F mode p = .error .value := by
  have hqs : ∀ ii, ∃ a, ii ≤ p → d.get (dName "q" ii) = some a ∧ Holds n n_q (fun i c => g ii i c) a := by
    intro ii
    by_cases h : ii ≤ p
    · obtain ⟨a, ha⟩ := distributed_q hd hp h
      exact ⟨a, fun _ => ha⟩
    · exact ⟨⟨0, []⟩, fun h' => absurd h' h⟩
  choose A hA using hqs
  have hl : (List.range p).mapM (fun ii => need (d.get (dName "q" ii))) = .ok ((List.range p).map A) :=
    Exc.mapM_eq fun ii hi => by
      rw [(hA ii (by have := List.mem_range.1 hi; omega)).1]
      rfl
  obtain ⟨qd, q1, q2⟩ := hcats_holds hq ((List.range p).map A) g (by
      intro h; have := congrArg List.length h; simp at this; omega) (by
    intro k a hk
    rw [List.getElem?_map] at hk
    obtain ⟨k', h1, rfl⟩ := Option.map_eq_some_iff.1 hk
    obtain ⟨h2, h3⟩ := List.getElem?_eq_some_iff.1 h1
    simp at h2 h3
    subst h3
    exact (hA k (by omega)).2)
  simp only [errorsFromInterp, hl, q1, bind, Except.bind, if_neg hm.1, if_neg hm.2]

/-! ## C118 -/

/-- What `dynamic_errors` promises when the derivatives of the states are `g` and the controls are `u`, for a call on `res`
that returns `errs` and leaves the result as `res'`. -/
structure ErrorsOf (p n n_q : ℕ) (g : ℕ → ℕ → ℕ → ℝ) (u : ℕ → Row) (F : Row → Row → Row) (mode : String) (save : Bool)
    (res : Res) (errs : Arrays) (res' : Res) : Prop where
  dyn : ∃ a, Arrays.get errs "dyn_err_interp" = some a ∧
    Holds n n_q (fun i c => g p i c - F (stateIn mode n_q g i) (u i) (n_q * (p - 1) + c)) a
  compat : ∀ k, 1 ≤ k → k < p → ∃ a, Arrays.get errs ("compat_err_" ++ toString k ++ "_interp") = some a ∧
    Holds n n_q (fun i c => g k i c - g 0 i (n_q * k + c)) a
  keys : errs.keys = "dyn_err_interp" :: (List.range (p - 1)).map (fun k => "compat_err_" ++ toString (k + 1) ++ "_interp")
  stored : ∃ d lists, res' = { res with interpolations := some ⟨d, lists⟩, error := if save then some errs else res.error } ∧
    Distributed p n n_q g d ∧ ∃ f, d.get "f" = some f ∧
      Holds n n_q (fun i c => F (stateIn mode n_q g i) (u i) (n_q * (p - 1) + c)) f

theorem distributed_f {p n n_q : ℕ} {g : ℕ → ℕ → ℕ → ℝ} {d : Arrays} (hd : Distributed p n n_q g d) (f : Arr2) :
    Distributed p n n_q g (d.set "f" f) := by
  have key : ∀ (name : String) (k : ℕ), (∀ c ∈ name.toList, c ≠ '_') → name ≠ "f" →
      (d.set "f" f).get (dName name k) = d.get (dName name k) := by
    intro name k h1 h2
    rw [get_set, if_neg]
    intro h
    exact h2 (dName_inj h1 f_plain (h.trans (dName_zero "f").symm)).1
  have hn : ∀ {jj : ℕ} {name : String}, (qAndDersNames p)[jj]? = some name →
      (∀ c ∈ name.toList, c ≠ '_') ∧ name ≠ "f" := by
    intro jj name h
    obtain ⟨h1, h2⟩ := names_plain (List.mem_of_getElem? h)
    exact ⟨h1, fun h => h2 (by simp [h])⟩
  refine ⟨fun ii hi => ?_, fun ii jj h => ?_, ?_⟩
  · obtain ⟨a, a1, a2⟩ := hd.whole ii hi
    exact ⟨a, by rw [key "x" ii x_plain (by decide), a1], a2⟩
  · obtain ⟨name, a, a1, a2, a3⟩ := hd.block ii jj h
    exact ⟨name, a, a1, by rw [key name ii (hn a1).1 (hn a1).2, a2], a3⟩
  · obtain ⟨name, a, a1, a2, a3⟩ := hd.last
    refine ⟨name, a, a1, ?_, a3⟩
    have := key name 0 (hn a1).1 (hn a1).2
    rw [dName_zero] at this
    rw [this, a2]

theorem dynamicErrors_of {elib : (d : ℕ) → Interp.Lib d Row} {lib : PsInterp.Lib} {res : Res} {p m n : ℕ} {given : Given}
    {d : Arrays} {lists : List (String × List Arr2)} {N n_q : ℕ} (hp : 1 ≤ p) (hq : 1 ≤ n_q) {g : ℕ → ℕ → ℕ → ℝ} {u : Arr2}
    (h : interpolation elib lib res p m none none n true given
      = .ok (⟨d, lists⟩, { res with interpolations := some ⟨d, lists⟩ }))
    (hd : Distributed p N n_q g d) (hu : d.get "u" = some u) {F : Row → Row → Row} (hF : Reads (p * n_q) F)
    {mode : String} (hm : mode = "q" ∨ mode = "x") (save : Bool) :
    ∃ errs res', dynamicErrors elib lib res F mode p m none none n save given = .ok (errs, res') ∧
      ErrorsOf p N n_q g (fun i => rows u.rows i) F mode save res errs res' := by
  obtain ⟨errs, f, dyn, e1, e2, e3, e4, e5, e6⟩ := C117 hp hq hd hu lists hF hm
  refine ⟨errs, { res with interpolations := some ⟨d.set "f" f, lists⟩, error := if save then some errs else res.error },
    ?_, ⟨dyn, e3, e4⟩, e6, e5, d.set "f" f, lists, rfl, distributed_f hd f, f, by rw [get_set, if_pos rfl], e2⟩
  simp only [dynamicErrors, h, e1, bind, Except.bind, pure, Except.pure]
  cases save <;> rfl

/-- The errors of a motion `Q` with the controls `W`. -/
theorem motion_errors {order n_q : ℕ} (hq : 1 ≤ n_q) {ts : List ℝ} {Q W : ℕ → ℝ[X]} {F : Row → Row → Row}
    (hF : Reads (n_q * order) F) {mode : String} (hmode : mode = "q" ∨ mode = "x") {save : Bool} {res res' : Res}
    {errs : Arrays} {w : ℕ} {call : Except PsErr (Arrays × Res)} (hc : call = .ok (errs, res'))
    (h : ErrorsOf order ts.length n_q (fun ii i c => (derivative^[c / n_q + ii] (Q (c % n_q))).eval (arr ts i))
      (fun i => rows (⟨w, ts.map fun t c => (W c).eval t⟩ : Arr2).rows i) F mode save res errs res') :
    ∃ errs res' a, call = .ok (errs, res') ∧ Arrays.get errs "dyn_err_interp" = some a ∧
      Holds ts.length n_q (fun i c => (derivative^[order] (Q c)).eval (arr ts i)
        - F (stateAt Q n_q (arr ts i)) (fun c => (W c).eval (arr ts i)) (n_q * (order - 1) + c)) a ∧
      (∀ k, 1 ≤ k → k < order → ∃ e, Arrays.get errs ("compat_err_" ++ toString k ++ "_interp") = some e ∧
        Holds ts.length n_q (fun _ _ => 0) e) ∧
      ∃ out, res' = { res with interpolations := some out, error := if save then some errs else res.error } := by
  obtain ⟨⟨a, a1, a2⟩, hk, -, d, lists, d1, -⟩ := h
  refine ⟨errs, res', a, hc, a1, ⟨a2.1, a2.2.1, fun i hi c hcc => ?_⟩, fun k hk1 hk2 => ?_, ⟨_, d1⟩⟩
  · rw [a2.2.2 i hi c hcc]
    dsimp only
    rw [Nat.div_eq_of_lt hcc, Nat.mod_eq_of_lt hcc, zero_add]
    congr 1
    have e : rows (ts.map fun t c => (W c).eval t) i = fun c => (W c).eval (arr ts i) := by
      funext c; simp [rows, arr, hi]
    rw [e]
    refine congrFun (hF _ _ _ fun c' _ => ?_) _
    unfold stateIn stateAt
    rcases hmode with rfl | rfl
    · rw [if_pos rfl]
      dsimp only
      rw [Nat.div_eq_of_lt (Nat.mod_lt _ (by omega)), Nat.mod_mod, zero_add]
    · rw [if_neg (by decide)]
      dsimp only
      rw [add_zero]
  · obtain ⟨e, e1, e2⟩ := hk k hk1 hk2
    refine ⟨e, e1, e2.1, e2.2.1, fun i hi c hcc => ?_⟩
    rw [e2.2.2 i hi c hcc]
    dsimp only
    rw [Nat.div_eq_of_lt hcc, Nat.mod_eq_of_lt hcc, Nat.mul_add_div (by omega), Nat.mul_add_mod, Nat.div_eq_of_lt hcc,
      Nat.mod_eq_of_lt hcc]
    simp

/-- C118: the errors of a bottom-up result with the motion `Q` and the controls `W`. The compatibility errors are zero
everywhere, and the dynamic error is the highest derivative of the motion minus the dynamics at the state of the motion. -/
theorem C118_bu_partial {scheme : String} (hs : scheme ∈ buImplemented) {order m : ℕ} (ho : 1 ≤ order) (hm : 1 ≤ m)
    (hj : m = 2 ∨ scheme ∉ jacobiSchemes) {N : ℕ} (hN : minPoints scheme ≤ N) {n_q : ℕ} (hq : 1 ≤ n_q)
    {t0 t1 : ℝ} (ht : t0 ≠ t1) {pre : String} (hpre : pre = "" ∨ pre = "BU_") (elib : (d : ℕ) → Interp.Lib d Row)
    (lib : PsInterp.Lib) (n : ℕ) (given : Option (List ℝ)) (save : Bool) {F : Row → Row → Row} (hF : Reads (n_q * order) F)
    {mode : String} (hmode : mode = "q" ∨ mode = "x") :
    ∃ coll full, buCollPoints N scheme m = .ok coll ∧ buArrPoints N scheme m = .ok full ∧
      ∀ (Q W : ℕ → ℝ[X]) (res : Res), (∀ j < n_q, (Q j).degree < (order + N : ℕ)) →
      res.scheme = pre ++ scheme → res.scheme_mode = "bottom-up pseudospectral" → res.solve_order = order →
      res.t = full.map (fun τ => tauToT τ t0 t1) →
      SamplesAt Q order n_q 0 (full.map fun τ => tauToT τ t0 t1) res.x →
      SamplesAt Q order n_q 1 (full.map fun τ => tauToT τ t0 t1) res.x_d →
      Through W N coll t0 t1 res.u.rows →
      ∃ errs res' a, dynamicErrors elib lib res F mode order m none none n save (asGiven given) = .ok (errs, res') ∧
        Arrays.get errs "dyn_err_interp" = some a ∧
        Holds (instants t0 t1 n given).length n_q (fun i c => (derivative^[order] (Q c)).eval (arr (instants t0 t1 n given) i)
          - F (stateAt Q n_q (arr (instants t0 t1 n given) i)) (fun c => (W c).eval (arr (instants t0 t1 n given) i))
            (n_q * (order - 1) + c)) a ∧
        (∀ k, 1 ≤ k → k < order → ∃ e, Arrays.get errs ("compat_err_" ++ toString k ++ "_interp") = some e ∧
          Holds (instants t0 t1 n given).length n_q (fun _ _ => 0) e) ∧
        ∃ out, res' = { res with interpolations := some out, error := if save then some errs else res.error } := by
  obtain ⟨coll, full, k1, k2, H⟩ := C113_partial hs ho hm hj hN hq ht hpre elib lib (p := order) (n_q := n_q) ho
    (mul_comm _ _) n given true
  refine ⟨coll, full, k1, k2, fun Q W res hQ r1 r2 r3 r4 hx hxd hu => ?_⟩
  obtain ⟨d, d1, d2, d3, d4⟩ := H Q W res hQ r1 r2 r3 r4 hx hxd hu
  simp only [if_true] at d1
  obtain ⟨errs, res', e1, e2⟩ := dynamicErrors_of ho hq d1 d2 d3 (by rw [mul_comm]; exact hF) hmode save
  exact motion_errors hq hF hmode e1 e2

/-- C118: the same for a top-down result. -/
theorem C118_td {scheme : String} (hs : scheme ∈ buImplemented) {order m : ℕ} (ho : 1 ≤ order) (hm : 1 ≤ m)
    {N : ℕ} (hN : minPoints scheme ≤ N) {n_q : ℕ} (hq : 1 ≤ n_q)
    {t0 t1 : ℝ} (ht : t0 ≠ t1) {pre : String} (hpre : pre = "" ∨ pre = "TD_") (elib : (d : ℕ) → Interp.Lib d Row)
    (lib : PsInterp.Lib) (n : ℕ) (given : Option (List ℝ)) (save : Bool) {F : Row → Row → Row} (hF : Reads (n_q * order) F)
    {mode : String} (hmode : mode = "q" ∨ mode = "x") :
    ∃ coll full nu, buCollPoints N scheme m = .ok coll ∧ tdConstructionPoints N scheme m = .ok full ∧
      collPoints (order + N) "LGL" = .ok nu ∧
      ∀ (Q W : ℕ → ℝ[X]) (q_constr : Arr2) (res : Res), (∀ j < n_q, (Q j).degree < (order + N : ℕ)) →
      res.scheme = pre ++ scheme → res.scheme_mode = "top-down pseudospectral" →
      res.t = full.map (fun τ => tauToT τ t0 t1) → res.q_constr = some q_constr →
      SamplesAt Q 1 n_q 0 (nu.map fun τ => tauToT τ t0 t1) q_constr → res.x.width = n_q * order →
      res.u.rows.length = N → Through W N coll t0 t1 res.u.rows →
      ∃ errs res' a, dynamicErrors elib lib res F mode order m none none n save (asGiven given) = .ok (errs, res') ∧
        Arrays.get errs "dyn_err_interp" = some a ∧
        Holds (instants t0 t1 n given).length n_q (fun i c => (derivative^[order] (Q c)).eval (arr (instants t0 t1 n given) i)
          - F (stateAt Q n_q (arr (instants t0 t1 n given) i)) (fun c => (W c).eval (arr (instants t0 t1 n given) i))
            (n_q * (order - 1) + c)) a ∧
        (∀ k, 1 ≤ k → k < order → ∃ e, Arrays.get errs ("compat_err_" ++ toString k ++ "_interp") = some e ∧
          Holds (instants t0 t1 n given).length n_q (fun _ _ => 0) e) ∧
        ∃ out, res' = { res with interpolations := some out, error := if save then some errs else res.error } := by
  obtain ⟨coll, full, nu, k1, k2, k3, H⟩ := C114 hs ho hm hN hq ht hpre elib lib (p := order) (n_q := n_q) ho
    (mul_comm _ _) n given true
  refine ⟨coll, full, nu, k1, k2, k3, fun Q W q_constr res hQ r1 r2 r4 r5 hqc hxw hul hu => ?_⟩
  obtain ⟨d, d1, d2, d3, d4⟩ := H Q W q_constr res hQ r1 r2 r4 r5 hqc hxw hul hu
  simp only [if_true] at d1
  obtain ⟨errs, res', e1, e2⟩ := dynamicErrors_of ho hq d1 d2 d3 (by rw [mul_comm]; exact hF) hmode save
  exact motion_errors hq hF hmode e1 e2

/-- C118: the errors of a node based result of order 1 or 2 with the columns `P` and the controls `W`. -/
theorem C118_node {scheme : String} (hs : scheme ∈ implemented) {N : ℕ} (hN : minPoints scheme ≤ N)
    {t0 t1 : ℝ} (ht : t0 ≠ t1) (elib : (d : ℕ) → Interp.Lib d Row) (lib : PsInterp.Lib) {s n_s : ℕ} (hso : s = 1 ∨ s = 2)
    {p n_q : ℕ} (hp : 1 ≤ p) (hq : 1 ≤ n_q) (hpq : p * n_q = s * n_s) (m k : ℕ) (given : Option (List ℝ)) (save : Bool)
    {F : Row → Row → Row} (hF : Reads (p * n_q) F) {mode : String} (hmode : mode = "q" ∨ mode = "x") :
    ∃ coll full n nodes, collPoints N scheme = .ok coll ∧ arrPoints N scheme = .ok full ∧ nColToNNodes scheme N = .ok n ∧
      nodePoints n scheme = .ok nodes ∧
      ∀ (P W : ℕ → ℝ[X]) (res : Res), res.scheme = scheme → res.scheme_mode = "pseudospectral" → res.solve_order = s →
      res.t = full.map (fun τ => tauToT τ t0 t1) → res.x.width = s * n_s → NodeData P s n n_s nodes t0 t1 res →
      res.u.rows.length = N → Through W N coll t0 t1 res.u.rows →
      ∃ errs res', dynamicErrors elib lib res F mode p m none none k save (asGiven given) = .ok (errs, res') ∧
        ErrorsOf p (instants t0 t1 k given).length n_q
          (fun ii i c => (derivative^[ii] (P c)).eval (arr (instants t0 t1 k given) i))
          (fun i => rows ((instants t0 t1 k given).map fun t c => (W c).eval t) i) F mode save res errs res' := by
  obtain ⟨coll, full, n, nodes, k1, k2, k3, k4, H⟩ := C115 hs hN ht elib lib hso hp hpq m k given true
  refine ⟨coll, full, n, nodes, k1, k2, k3, k4, fun P W res r1 r2 r3 r4 r5 hnd hul hu => ?_⟩
  obtain ⟨d, d1, d2, d3, d4⟩ := H P W res r1 r2 r3 r4 r5 hnd hul hu
  simp only [if_true] at d1
  exact dynamicErrors_of hp hq d1 d2 d3 hF hmode save

/-- C118: the errors of an equispaced result that starts at time zero. -/
theorem C118_equi_partial {res : Res} {s : Shape} {N M dim : ℕ} (hs : SchemeIs (some res.solve_order) res.scheme s M)
    (hM : 0 < M) (hN : 2 ≤ N) {tf : ℝ} (htf : 0 < tf) (hr : EquiRes res N M dim 0 tf) {p n_q : ℕ} (hp : 1 ≤ p) (hq : 1 ≤ n_q)
    (hpq : p * n_q = M * dim) (hj : s = .parab (2 / 5) → p ≤ 2) (elib : (d : ℕ) → Interp.Lib d Row) (lib : PsInterp.Lib)
    (m n : ℕ) (given : Option (List ℝ)) (hne : instants 0 tf n given ≠ []) (hin : ∀ t ∈ instants 0 tf n given, 0 ≤ t ∧ t ≤ tf)
    (save : Bool) {F : Row → Row → Row} (hF : Reads (p * n_q) F) {mode : String} (hmode : mode = "q" ∨ mode = "x") :
    ∃ errs res' g us, dynamicErrors elib lib res F mode p m none none n save (asGiven given) = .ok (errs, res') ∧
      ErrorsOf p (instants 0 tf n given).length n_q g (fun i => rows us i) F mode save res errs res' ∧
      OnSteps res s N M dim p tf (tf / ((N : ℝ) - 1)) (instants 0 tf n given) g us := by
  obtain ⟨d, g, us, d1, d2, d3, d4, d5⟩ := C116_partial hs hM hN htf hr hp hpq hj elib lib m n given hne hin true
  simp only [if_true] at d1
  obtain ⟨errs, res', e1, e2⟩ := dynamicErrors_of hp hq d1 d2 d3 hF hmode save
  exact ⟨errs, res', g, us, e1, e2, d5⟩

/-- C118 fails as documented: every call that returns stores its interpolations, with the values of the dynamics, in the
result, also if `save_in_res` is false; the errors are stored only on request. -/
theorem C118_refuted {elib : (d : ℕ) → Interp.Lib d Row} {lib : PsInterp.Lib} {res : Res} {F : Row → Row → Row} {mode : String}
    {p m : ℕ} {x_interp u_interp : Option String} {n : ℕ} {save : Bool} {given : Given} {errs : Arrays} {res' : Res}
    (h : dynamicErrors elib lib res F mode p m x_interp u_interp n save given = .ok (errs, res')) :
    (∃ out f, res'.interpolations = some out ∧ out.arrs.get "f" = some f) ∧
      res'.error = if save then some errs else res.error := by
  unfold dynamicErrors at h
  obtain ⟨⟨out, r⟩, h1, h⟩ := Exc.bind_ok h
  obtain ⟨⟨errors, out'⟩, h2, h⟩ := Exc.bind_ok h
  have hr : r.error = res.error := by
    simp only [interpolation, bind, Except.bind, pure, Except.pure, if_true] at h1
    repeat' split at h1
    all_goals first | (cases h1; rfl) | cases h1
  have hf : ∃ f, out'.arrs.get "f" = some f := by
    unfold errorsFromInterp at h2
    obtain ⟨l, -, h2⟩ := Exc.bind_ok h2
    obtain ⟨qd, -, h2⟩ := Exc.bind_ok h2
    simp only [bind, Except.bind, pure, Except.pure] at h2
    repeat' split at h2
    all_goals first | (cases h2; exact ⟨_, by rw [get_set, if_pos rfl]⟩) | cases h2
  obtain ⟨f, hf⟩ := hf
  simp only [pure, Except.pure, Except.ok.injEq, Prod.mk.injEq] at h
  obtain ⟨rfl, rfl⟩ := h
  cases save
  · exact ⟨⟨out', f, rfl, hf⟩, hr⟩
  · exact ⟨⟨out', f, rfl, hf⟩, rfl⟩

/-! ## Concrete cases -/

/-- A dictionary for the motion `t ^ 2` at the instants 0 and 1. -/
example : ∃ d, Distributed 1 2 1 (fun ii i _ => if ii = 0 then (i : ℝ) ^ 2 else 2 * i) d ∧ d.get "u" = some ⟨1, [0, 0]⟩ ∧
    Reads 1 (fun x u c => x 0 + u c) := by
  refine ⟨[("x", ⟨1, [fun _ => 0, fun _ => 1]⟩), ("x_d", ⟨1, [fun _ => 0, fun _ => 2]⟩), ("q", ⟨1, [fun _ => 0, fun _ => 1]⟩),
    ("q_d", ⟨1, [fun _ => 0, fun _ => 2]⟩), ("v", ⟨1, [fun _ => 0, fun _ => 2]⟩), ("u", ⟨1, [0, 0]⟩)],
    ⟨fun ii hi => ?_, fun ii jj h => ?_, ?_⟩, rfl, fun x x' u h => by simp [h 0 (by norm_num)]⟩
  · interval_cases ii
    · exact ⟨_, rfl, rfl, rfl, fun i hi c _ => by interval_cases i <;> simp [rows]⟩
    · exact ⟨_, rfl, rfl, rfl, fun i hi c _ => by interval_cases i <;> simp [rows]⟩
  · obtain ⟨rfl, rfl | rfl⟩ : jj = 0 ∧ (ii = 0 ∨ ii = 1) := by omega
    · exact ⟨"q", _, rfl, rfl, rfl, rfl, fun i hi c _ => by interval_cases i <;> simp [rows]⟩
    · exact ⟨"q", _, rfl, rfl, rfl, rfl, fun i hi c _ => by interval_cases i <;> simp [rows]⟩
  · exact ⟨"v", _, rfl, rfl, rfl, rfl, fun i hi c _ => by interval_cases i <;> simp [rows]⟩

/-- The parabola of `EquiInterp`, with dynamics that it obeys: the call without `save_in_res` returns, and stores its
interpolations. -/
example (elib : (d : ℕ) → Interp.Lib d Row) (lib : PsInterp.Lib) : ∃ errs res' out,
    dynamicErrors elib lib squareRes (fun x u c => if c = 0 then x 1 else u 0) "q" 2 2 none none 5 false .absent
      = .ok (errs, res') ∧ squareRes.interpolations = none ∧ res'.interpolations = some out := by
  have hi := default_instants (tf := 2) (by norm_num) (n := 5) (by norm_num)
  obtain ⟨errs, res', g, us, h1, -, -⟩ := C118_equi_partial (res := squareRes) (s := .parab (1 / 2)) (N := 3) (M := 2) (dim := 1)
    (p := 2) (n_q := 1) .hs_mod (by norm_num) (by norm_num) (tf := 2) (by norm_num)
    ⟨rfl, rfl, rfl, rfl, rfl, rfl, rfl, rfl, fun _ => ⟨_, _, _, rfl, rfl, rfl, rfl, rfl⟩⟩ (by norm_num) (by norm_num) rfl
    (fun h => le_rfl) elib lib 2 5 none hi.1 hi.2 false (F := fun x u c => if c = 0 then x 1 else u 0)
    (fun x x' u h => by simp only [h 1 (by norm_num)]) (Or.inl rfl)
  obtain ⟨⟨out, f, o1, -⟩, -⟩ := C118_refuted h1
  exact ⟨errs, res', out, h1, rfl, o1⟩

end Chords.Props
