import Verif.Model.Attrs
import Verif.Props.Problem

/-! # C161: the methods of a problem find the attributes that they read -/

namespace Chords.Props
open Chords.Problem Chords.Attrs
open Chords.Attrs (Call)

/-- The costs that a problem may be given. -/
def costs : List Attrs.Call := [.uSqCost, .quadCost, .trapzCost, .sqCost]

theorem hist_keeps {p : Problem} {attrs : List String} {done : List Attrs.Call} (h : Hist p attrs done) :
    initAttrs ⊆ attrs ∧ ∀ m ∈ done, writes p m ⊆ attrs := by
  induction h with
  | new => exact ⟨List.Subset.refl _, fun m hm => by simp at hm⟩
  | ok m _ _ _ ih =>
    refine ⟨List.Subset.trans ih.1 (List.subset_append_left _ _), fun k hk => ?_⟩
    rcases List.mem_cons.1 hk with rfl | hk
    · exact List.subset_append_right _ _
    · exact List.Subset.trans (ih.2 k hk) (List.subset_append_left _ _)
  | raised m w _ _ ih => exact ⟨List.Subset.trans ih.1 (List.subset_append_left _ _), fun k hk => List.Subset.trans (ih.2 k hk) (List.subset_append_left _ _)⟩

/-- An attribute comes from the start or from a method that writes it. -/
theorem hist_source {p : Problem} {attrs : List String} {done : List Attrs.Call} (h : Hist p attrs done) {a : String} (ha : a ∈ attrs) :
    a ∈ initAttrs ∨ ∃ m, a ∈ writes p m := by
  induction h with
  | new => exact Or.inl ha
  | ok m _ _ _ ih => exact (List.mem_append.1 ha).elim ih fun h => Or.inr ⟨m, h⟩
  | raised m w _ hw ih => exact (List.mem_append.1 ha).elim ih fun h => Or.inr ⟨m, hw h⟩

/-- The attributes that a call leaves are there only if a call that writes them was made. -/
theorem hist_done {p : Problem} {attrs : List String} {done : List Attrs.Call} (h : Hist p attrs done) : ∀ m ∈ done, has p m = true := by
  induction h with
  | new => intro m hm; simp at hm
  | ok m _ hm _ ih =>
    intro k hk
    rcases List.mem_cons.1 hk with rfl | hk
    · exact hm
    · exact ih k hk
  | raised m w _ _ ih => exact ih

/-- What has to be done before a call: first the dynamics, then the set-up, and a cost before the solution. -/
def Ready (done : List Attrs.Call) : Attrs.Call → Prop
  | .dynamic => True
  | .setup => .dynamic ∈ done
  | .solve => .dynamic ∈ done ∧ .setup ∈ done ∧ ∃ c ∈ costs, c ∈ done
  | _ => .dynamic ∈ done ∧ .setup ∈ done

private theorem table_reads : ∀ cm ∈ [(SchemeClass.equispaced, "equispaced"), (.pseudo, "pseudospectral"), (.bu, "bottom-up pseudospectral"),
    (.td, "top-down pseudospectral"), (.multi, "ph equispaced"), (.multi, "ph pseudospectral"), (.multi, "ph bottom-up pseudospectral"),
    (.multi, "ph top-down pseudospectral")], ∀ dyn ∈ [none, some DynClass.implicit, some .explicit, some .func], ∀ ini ∈ [InitClass.zero, .lin, .waypoints, .custom],
    reads ⟨dyn, cm.1, ini, cm.2, ""⟩ .dynamic ⊆ initAttrs ∧
    reads ⟨dyn, cm.1, ini, cm.2, ""⟩ .setup ⊆ initAttrs ++ writes ⟨dyn, cm.1, ini, cm.2, ""⟩ .dynamic ∧
    (∀ m ∈ [Attrs.Call.apply, .uSqCost, .quadCost, .trapzCost, .sqCost, .guess], has ⟨dyn, cm.1, ini, cm.2, ""⟩ m = true → ¬(cm.1 = .multi ∧ m = .trapzCost) →
      reads ⟨dyn, cm.1, ini, cm.2, ""⟩ m ⊆ initAttrs ++ writes ⟨dyn, cm.1, ini, cm.2, ""⟩ .dynamic ++ writes ⟨dyn, cm.1, ini, cm.2, ""⟩ .setup) ∧
    reads ⟨dyn, cm.1, ini, cm.2, ""⟩ .solve ⊆
      initAttrs ++ writes ⟨dyn, cm.1, ini, cm.2, ""⟩ .dynamic ++ writes ⟨dyn, cm.1, ini, cm.2, ""⟩ .setup ++ ["cost"] := by
  decide +kernel

private theorem table_of_problem {p : Problem} (h : factoryTable p) : (p.cls, p.mode) ∈ [(SchemeClass.equispaced, "equispaced"), (.pseudo, "pseudospectral"),
    (.bu, "bottom-up pseudospectral"), (.td, "top-down pseudospectral"), (.multi, "ph equispaced"), (.multi, "ph pseudospectral"),
    (.multi, "ph bottom-up pseudospectral"), (.multi, "ph top-down pseudospectral")] := by
  rcases h with h | h | h | h | h | h | h | h <;> simp [h.1, h.2.1]

private theorem reads_scheme (p : Problem) (m : Attrs.Call) : reads p m = reads ⟨p.dyn, p.cls, p.ini, p.mode, ""⟩ m := by cases m <;> rfl
private theorem writes_scheme (p : Problem) (m : Attrs.Call) : writes p m = writes ⟨p.dyn, p.cls, p.ini, p.mode, ""⟩ m := by cases m <;> rfl
private theorem has_scheme (p : Problem) (m : Attrs.Call) : has p m = has ⟨p.dyn, p.cls, p.ini, p.mode, ""⟩ m := by cases m <;> rfl

/-- C161: in every problem that the factory makes, and after any calls, also some that raised, a method that is called in the documented order finds all the
attributes that it reads. Missing from the full claim: `trapz_cost` of segmented problems, and solving without a cost. -/
theorem C161_found_partial {lm : LM} {s i : String} {p : Problem} (hp : optiProblem lm s i = .ok p) {attrs : List String} {done : List Attrs.Call}
    (h : Hist p attrs done) {m : Attrs.Call} (hm : has p m = true) (hr : Ready done m) (ht : ¬(p.cls = .multi ∧ m = .trapzCost)) : reads p m ⊆ attrs := by
  have hd : p.dyn ∈ [none, some DynClass.implicit, some .explicit, some .func] := by
    rcases p.dyn with - | - | - | - <;> simp
  have hi : p.ini ∈ [InitClass.zero, .lin, .waypoints, .custom] := by cases p.ini <;> simp
  obtain ⟨t1, t2, t3, t4⟩ := table_reads _ (table_of_problem (table_of_ok hp)) _ hd _ hi
  obtain ⟨k1, k2⟩ := hist_keeps h
  rw [reads_scheme]
  rw [has_scheme] at hm
  have both : .dynamic ∈ done ∧ .setup ∈ done →
      initAttrs ++ writes ⟨p.dyn, p.cls, p.ini, p.mode, ""⟩ .dynamic ++ writes ⟨p.dyn, p.cls, p.ini, p.mode, ""⟩ .setup ⊆ attrs := by
    rintro ⟨d1, d2⟩
    rw [← writes_scheme, ← writes_scheme]
    exact List.append_subset.2 ⟨List.append_subset.2 ⟨k1, k2 _ d1⟩, k2 _ d2⟩
  cases m with
  | dynamic => exact List.Subset.trans t1 k1
  | setup =>
    refine List.Subset.trans t2 (List.append_subset.2 ⟨k1, ?_⟩)
    rw [← writes_scheme]
    exact k2 _ hr
  | solve =>
    refine List.Subset.trans t4 (List.append_subset.2 ⟨both ⟨hr.1, hr.2.1⟩, ?_⟩)
    obtain ⟨c, hc, hc'⟩ := hr.2.2
    have : writes p c = ["cost"] := by
      simp only [costs, List.mem_cons, List.not_mem_nil, or_false] at hc
      rcases hc with rfl | rfl | rfl | rfl <;> rfl
    exact this ▸ k2 c hc'
  | apply => exact List.Subset.trans (t3 _ (by simp) hm ht) (both hr)
  | uSqCost => exact List.Subset.trans (t3 _ (by simp) hm ht) (both hr)
  | quadCost => exact List.Subset.trans (t3 _ (by simp) hm ht) (both hr)
  | trapzCost => exact List.Subset.trans (t3 _ (by simp) hm ht) (both hr)
  | sqCost => exact List.Subset.trans (t3 _ (by simp) hm ht) (both hr)
  | guess => exact List.Subset.trans (t3 _ (by simp) hm ht) (both hr)

/-- C161: calls in the documented order return, as far as attributes go. -/
theorem C161_order {lm : LM} {s i : String} {p : Problem} (hp : optiProblem lm s i = .ok p) (hd : p.dyn ≠ none) :
    ∃ attrs, Hist p attrs [.solve, .guess, .uSqCost, .apply, .setup, .dynamic] := by
  have step : ∀ {attrs done} (m : Attrs.Call), Hist p attrs done → has p m = true → Ready done m → m ≠ .trapzCost → Hist p (attrs ++ writes p m) (m :: done) :=
    fun m h1 h2 h3 h4 => .ok m h1 h2 (C161_found_partial hp h1 h2 h3 fun h => h4 h.2)
  have d0 : has p .dynamic = true := by simpa [has, Option.isSome_iff_ne_none] using hd
  have h1 := step .dynamic .new d0 trivial (by simp)
  have h2 := step .setup h1 rfl (by simp [Ready]) (by simp)
  have h3 := step .apply h2 rfl (by simp [Ready]) (by simp)
  have h4 := step .uSqCost h3 rfl (by simp [Ready]) (by simp)
  have h5 := step .guess h4 rfl (by simp [Ready]) (by simp)
  exact ⟨_, step .solve h5 rfl (by simp [Ready, costs]) (by simp)⟩

private theorem writes_init {p : Problem} {a : String} (ha : a ∉ initAttrs) (hw : ∀ m, a ∉ writes p m) {attrs : List String} {done : List Attrs.Call}
    (h : Hist p attrs done) : a ∉ attrs := fun hm => (hist_source h hm).elim ha fun ⟨m, h⟩ => hw m h

/-- C161 is false of `trapz_cost` of segmented problems: after any calls, it raises for the attribute `n_coll`. -/
theorem C161_trapz_refuted {p : Problem} (hp : p.cls = .multi) {attrs : List String} {done : List Attrs.Call} (h : Hist p attrs done) :
    ¬reads p .trapzCost ⊆ attrs ∧ .trapzCost ∉ done := by
  have key : ∀ {attrs done}, Hist p attrs done → "n_coll" ∉ attrs := fun h => writes_init (by decide) (fun m => by
    cases m <;> simp [writes, writesSetup, hp]) h
  refine ⟨fun hc => key h (hc (by simp [reads, readsTrapz])), ?_⟩
  induction h with
  | new => simp
  | ok m h0 _ hr ih =>
    intro hm
    rcases List.mem_cons.1 hm with rfl | hm
    · exact key h0 (hr (by simp [reads, readsTrapz]))
    · exact ih hm
  | raised m w _ _ ih => exact ih

/-- C161 is false of problems without a cost: everything is set up in order, and solving raises for the attribute `cost`, although the code means to allow
for no cost. -/
theorem C161_cost_refuted {lm : LM} {s i : String} {p : Problem} (hp : optiProblem lm s i = .ok p) (hd : p.dyn ≠ none) :
    ∃ attrs, Hist p attrs [.guess, .apply, .setup, .dynamic] ∧ ¬reads p .solve ⊆ attrs := by
  have step : ∀ {attrs done} (m : Attrs.Call), Hist p attrs done → has p m = true → Ready done m → m ≠ .trapzCost → Hist p (attrs ++ writes p m) (m :: done) :=
    fun m h1 h2 h3 h4 => .ok m h1 h2 (C161_found_partial hp h1 h2 h3 fun h => h4 h.2)
  have d0 : has p .dynamic = true := by simpa [has, Option.isSome_iff_ne_none] using hd
  have h1 := step .dynamic .new d0 trivial (by simp)
  have h2 := step .setup h1 rfl (by simp [Ready]) (by simp)
  have h3 := step .apply h2 rfl (by simp [Ready]) (by simp)
  have h4 := step .guess h3 rfl (by simp [Ready]) (by simp)
  refine ⟨_, h4, fun hc => ?_⟩
  have : "cost" ∈ initAttrs ++ writes p .dynamic ++ writes p .setup ++ writes p .apply ++ writes p .guess := hc (by simp [reads])
  have hw : "cost" ∉ writesSetup p.cls := by cases p.cls <;> decide
  simp [initAttrs, writes, hw] at this

/-- A problem with segments that the factory makes. -/
example : ∃ p attrs, optiProblem .callable "ph_LGL" "lin" = .ok p ∧ p.cls = .multi ∧ Hist p attrs [.solve, .guess, .uSqCost, .apply, .setup, .dynamic] := by
  have hp := ((C60_class .callable "LGL" "lin" .lin rfl).2.1 (by decide)).2
  obtain ⟨attrs, h⟩ := C161_order hp (by simp [dynClass])
  exact ⟨_, attrs, hp, rfl, h⟩

end Chords.Props
