import Verif.Model.ArrayDyn
import Verif.Model.Schemes
import Verif.Props.ArrayRestr

/-! # Restrictions and steps on arrays with the dynamics: C146 and C147 -/

namespace Chords.Props
open ArrayProgs

/-! ### Specification -/

/-- The array function `F` computes `f` on arrays with one row: `n` states and `m` controls. -/
def Calls (F : DynA) (tw : Bool) (n m : ℕ) (f : (ℕ → ℝ) → (ℕ → ℝ) → ℕ → ℝ) : Prop :=
  ∀ c d X U, Row c tw n X → Row d tw m U → ∃ o, F c d = .ok o ∧ Row o tw n (f X U)

/-- The entries of an array with the coordinates and then the velocities. -/
def join (dim : ℕ) (x : (ℕ → ℝ) × (ℕ → ℝ)) : ℕ → ℝ := fun j => if j < dim then x.1 j else x.2 (j - dim)

/-- The same with states that have coordinates and velocities. -/
def Calls2 (F : DynA) (tw : Bool) (dim m : ℕ) (f : (ℕ → ℝ) × (ℕ → ℝ) → (ℕ → ℝ) → (ℕ → ℝ) × (ℕ → ℝ)) : Prop :=
  ∀ c d x U, Row c tw (2 * dim) (join dim x) → Row d tw m U → ∃ o, F c d = .ok o ∧ Row o tw (2 * dim) (join dim (f x U))

/-- The array function computes `g` at the controls `d`, whatever their shape. -/
def At (F : DynA) (tw : Bool) (n : ℕ) (d : Cell) (g : (ℕ → ℝ) → ℕ → ℝ) : Prop := ∀ c X, Row c tw n X → ∃ o, F c d = .ok o ∧ Row o tw n (g X)

def At2 (F : DynA) (tw : Bool) (dim : ℕ) (d : Cell) (g : (ℕ → ℝ) × (ℕ → ℝ) → (ℕ → ℝ) × (ℕ → ℝ)) : Prop :=
  ∀ c x, Row c tw (2 * dim) (join dim x) → ∃ o, F c d = .ok o ∧ Row o tw (2 * dim) (join dim (g x))

/-- A vector of `n` entries as an array: a row or a column. -/
def Vect (c : Cell) (n : ℕ) (f : ℕ → ℝ) : Prop :=
  (c.rows = 1 ∧ c.cols = n ∧ ∀ j < n, c.val 0 j = f j) ∨ (c.rows = n ∧ c.cols = 1 ∧ ∀ j < n, c.val j 0 = f j)

/-- A column of `n` entries. -/
def Col (c : Cell) (n : ℕ) (f : ℕ → ℝ) : Prop := c.two = true ∧ c.rows = n ∧ c.cols = 1 ∧ ∀ j < n, c.val j 0 = f j

/-! ### Rows -/

variable (lib : Lib) {tw : Bool} {n m dim : ℕ} {x xn u un uc : Cell} {F : DynA} (dt : ℝ)

theorem row_add {A B : Cell} {f g : ℕ → ℝ} (hA : Row A tw n f) (hB : Row B tw n g) : ∃ C, add lib A B = .ok C ∧ Row C tw n (f + g) := by
  obtain ⟨C, e, h⟩ := add_holds lib hA.holds hB.holds
  exact ⟨C, e, h.row fun j _ => rfl⟩

theorem row_sub {A B : Cell} {f g : ℕ → ℝ} (hA : Row A tw n f) (hB : Row B tw n g) : ∃ C, sub lib A B = .ok C ∧ Row C tw n (f - g) := by
  obtain ⟨C, e, h⟩ := sub_holds lib hA.holds hB.holds
  exact ⟨C, e, h.row fun j _ => rfl⟩

omit lib dt in
theorem row_scale (k : ℝ) {A : Cell} {f : ℕ → ℝ} (hA : Row A tw n f) : Row (scale k A) tw n (k • f) :=
  (scale_holds k hA.holds).row fun j _ => rfl

omit lib dt in
theorem row_first {c : Cell} (hd : 0 < dim) {x : (ℕ → ℝ) × (ℕ → ℝ)} (h : Row c tw (2 * dim) (join dim x)) : Row (pick c (Cuts.first ⟨dim⟩)) tw dim x.1 :=
  (halves hd h).1.row fun j hj => by simp [join, hj]

omit lib dt in
theorem row_last {c : Cell} (hd : 0 < dim) {x : (ℕ → ℝ) × (ℕ → ℝ)} (h : Row c tw (2 * dim) (join dim x)) : Row (pick c (Cuts.last ⟨dim⟩)) tw dim x.2 :=
  (halves hd h).2.row fun j hj => by simp [join]

omit lib dt in
theorem rest_eq : (Cuts.rest ⟨dim⟩ (2 * dim)) = ⟨dim, dim⟩ := by
  rw [Cuts.rest, allButFirst_eq (M := 2) (by omega)]
  congr
  omega

omit lib dt in
theorem row_rest {c : Cell} {x : (ℕ → ℝ) × (ℕ → ℝ)} (h : Row c tw (2 * dim) (join dim x)) : Row (pick c (Cuts.rest ⟨dim⟩)) tw dim x.2 :=
  (pick_holds h.holds rest_eq (by omega)).row fun j hj => by simp [join]

theorem row_put_last_first {q v : Cell} (hd : 0 < dim) {X f g : ℕ → ℝ} (hx : Row x tw (2 * dim) X) (hfl : x.int = false) (hq : Row q tw dim f) (hv : Row v tw dim g) :
    ∃ d d', put lib x (Cuts.last ⟨dim⟩) v = .ok d ∧ put lib d (Cuts.first ⟨dim⟩) q = .ok d' ∧ Row d' tw (2 * dim) (join dim (f, g)) := by
  obtain ⟨d, d', e, e', h⟩ := put_last_first lib hd hx hfl hq.holds hv.holds
  exact ⟨d, d', e, e', h.row fun j _ => rfl⟩

theorem row_put_first_last {q v : Cell} (hd : 0 < dim) {X f g : ℕ → ℝ} (hx : Row x tw (2 * dim) X) (hfl : x.int = false) (hq : Row q tw dim f) (hv : Row v tw dim g) :
    ∃ d d', put lib x (Cuts.first ⟨dim⟩) q = .ok d ∧ put lib d (Cuts.last ⟨dim⟩) v = .ok d' ∧ Row d' tw (2 * dim) (join dim (f, g)) := by
  obtain ⟨d, d', e, e', h⟩ := put_first_last lib hd hx hfl hq.holds hv.holds
  exact ⟨d, d', e, e', h.row fun j _ => rfl⟩

theorem row_put_rest_first {q v : Cell} {X f g : ℕ → ℝ} (hx : Row x tw (2 * dim) X) (hfl : x.int = false) (hq : Row q tw dim f) (hv : Row v tw dim g) :
    ∃ d d', put lib x (Cuts.rest ⟨dim⟩) v = .ok d ∧ put lib d (Cuts.first ⟨dim⟩) q = .ok d' ∧ Row d' tw (2 * dim) (join dim (f, g)) := by
  obtain ⟨d, e, hi, h⟩ := put_holds lib hx.holds hfl rest_eq (by omega) hv.holds
  obtain ⟨d', e', -, h'⟩ := put_holds lib h hi (first_eq (M := 2) (by omega)) (by omega) hq.holds
  refine ⟨d, d', e, e', h'.row fun j hj => ?_⟩
  simp only [join]
  by_cases hc : j < dim
  · rw [if_pos (by omega), if_pos hc, Nat.sub_zero]
  · rw [if_neg (by omega), if_pos (by omega), if_neg hc]

theorem row_put_first_rest {q v : Cell} {X f g : ℕ → ℝ} (hx : Row x tw (2 * dim) X) (hfl : x.int = false) (hq : Row q tw dim f) (hv : Row v tw dim g) :
    ∃ d d', put lib x (Cuts.first ⟨dim⟩) q = .ok d ∧ put lib d (Cuts.rest ⟨dim⟩) v = .ok d' ∧ Row d' tw (2 * dim) (join dim (f, g)) := by
  obtain ⟨d, e, hi, h⟩ := put_holds lib hx.holds hfl (first_eq (M := 2) (by omega)) (by omega) hq.holds
  obtain ⟨d', e', -, h'⟩ := put_holds lib h hi rest_eq (by omega) hv.holds
  refine ⟨d, d', e, e', h'.row fun j hj => ?_⟩
  simp only [join]
  by_cases hc : j < dim
  · rw [if_neg (by omega), if_pos (by omega), if_pos hc, Nat.sub_zero]
  · rw [if_pos (by omega), if_neg hc]

omit lib dt in
theorem row_congr {c : Cell} {f g : ℕ → ℝ} (h : Row c tw n f) (e : f = g) : Row c tw n g := e ▸ h

omit lib dt in
theorem join_sub (x y : (ℕ → ℝ) × (ℕ → ℝ)) : join dim x - join dim y = join dim (x - y) := by
  funext j
  simp only [join, Pi.sub_apply, Prod.fst_sub, Prod.snd_sub]
  split_ifs <;> rfl

/-! ### C146: first order -/

section First
variable {X Xn U Un Uc : ℕ → ℝ} {f : (ℕ → ℝ) → (ℕ → ℝ) → ℕ → ℝ}

/-- C146. -/
theorem C146_euler (hF : Calls F tw n m f) (hx : Row x tw n X) (hxn : Row xn tw n Xn) (hu : Row u tw m U) :
    ∃ out, eulerRA lib x xn u un F dt = .ok out ∧ Row out tw n (eulerRestr X Xn U Un f dt) := by
  obtain ⟨o, e, h⟩ := hF _ _ _ _ hx hu
  obtain ⟨s, e1, h1⟩ := row_add lib hx (row_scale dt h)
  obtain ⟨r, e2, h2⟩ := row_sub lib hxn h1
  exact ⟨r, by simp only [eulerRA, bind, Except.bind, e, e1, e2], h2⟩

/-- C146. -/
theorem C146_trapz (hF : Calls F tw n m f) (hx : Row x tw n X) (hxn : Row xn tw n Xn) (hu : Row u tw m U) (hun : Row un tw m Un) :
    (∃ out, trapzRA lib x xn u un F dt = .ok out ∧ Row out tw n (trapzRestr X Xn U Un f dt)) ∧
      ∃ out, trapzSA lib xn x u un F dt = .ok out ∧ Row out tw n (trapzOptiStep Xn X U Un f dt) := by
  obtain ⟨a, e1, h1⟩ := hF _ _ _ _ hx hu
  obtain ⟨b, e2, h2⟩ := hF _ _ _ _ hxn hun
  obtain ⟨s, e3, h3⟩ := row_add lib h1 h2
  obtain ⟨t, e4, h4⟩ := row_add lib hx (row_scale (dt / 2) h3)
  obtain ⟨r, e5, h5⟩ := row_sub lib hxn h4
  obtain ⟨r', e6, h6⟩ := row_sub lib h4 hxn
  exact ⟨⟨r, by simp only [trapzRA, bind, Except.bind, e1, e2, e3, e4, e5], h5⟩, ⟨r', by simp only [trapzSA, bind, Except.bind, e1, e2, e3, e4, e6], h6⟩⟩

theorem row_rkSum {a b c d : Cell} {A B C D : ℕ → ℝ} (h1 : Row a tw n A) (h2 : Row b tw n B) (h3 : Row c tw n C) (h4 : Row d tw n D) :
    ∃ o, rkSum lib a b c d = .ok o ∧ Row o tw n (A + (2 : ℝ) • B + (2 : ℝ) • C + D) := by
  obtain ⟨s, e1, g1⟩ := row_add lib h1 (row_scale 2 h2)
  obtain ⟨t, e2, g2⟩ := row_add lib g1 (row_scale 2 h3)
  obtain ⟨o, e3, g3⟩ := row_add lib g2 h4
  exact ⟨o, by simp only [rkSum, bind, Except.bind, e1, e2, e3], g3⟩

/-- C146. -/
theorem C146_rk4 (hF : Calls F tw n m f) (hx : Row x tw n X) (hxn : Row xn tw n Xn) (hu : Row u tw m U) (hun : Row un tw m Un) (huc : Row uc tw m Uc) :
    (∃ out, rk4RA lib x xn u un F dt = .ok out ∧ Row out tw n (rk4Restr X Xn U Un f dt)) ∧
      ∃ out, rk4StepA lib x u un F dt uc = .ok out ∧ Row out tw n (rk4Step X U Un f dt Uc) := by
  obtain ⟨k1, e1, h1⟩ := hF _ _ _ _ hx hu
  obtain ⟨y1, e2, h2⟩ := row_add lib hx (row_scale (dt / 2) h1)
  constructor
  · obtain ⟨k2, e3, h3⟩ := hF _ _ _ _ h2 hu
    obtain ⟨y2, e4, h4⟩ := row_add lib hx (row_scale (dt / 2) h3)
    obtain ⟨k3, e5, h5⟩ := hF _ _ _ _ h4 hu
    obtain ⟨y3, e6, h6⟩ := row_add lib hx (row_scale dt h5)
    obtain ⟨k4, e7, h7⟩ := hF _ _ _ _ h6 hu
    obtain ⟨s, e8, h8⟩ := row_rkSum lib h1 h3 h5 h7
    obtain ⟨t, e9, h9⟩ := row_add lib hx (row_scale (dt / 6) h8)
    obtain ⟨r, e10, h10⟩ := row_sub lib hxn h9
    exact ⟨r, by simp only [rk4RA, bind, Except.bind, e1, e2, e3, e4, e5, e6, e7, e8, e9, e10], h10⟩
  · obtain ⟨k2, e3, h3⟩ := hF _ _ _ _ h2 huc
    obtain ⟨y2, e4, h4⟩ := row_add lib hx (row_scale (dt / 2) h3)
    obtain ⟨k3, e5, h5⟩ := hF _ _ _ _ h4 huc
    obtain ⟨y3, e6, h6⟩ := row_add lib hx (row_scale dt h5)
    obtain ⟨k4, e7, h7⟩ := hF _ _ _ _ h6 hun
    obtain ⟨s, e8, h8⟩ := row_rkSum lib h1 h3 h5 h7
    obtain ⟨t, e9, h9⟩ := row_add lib hx (row_scale (dt / 6) h8)
    exact ⟨t, by simp only [rk4StepA, bind, Except.bind, e1, e2, e3, e4, e5, e6, e7, e8, e9], h9⟩

theorem hs_parab_gen (hF : Calls F tw n m f) (hx : Row x tw n X) (hxn : Row xn tw n Xn) (hu : Row u tw m U) (hun : Row un tw m Un) (hc : At F tw n uc fun X => f X Uc) :
    ∃ out, hsParabRA lib x xn u un F dt uc = .ok out ∧ Row out tw n (hsParabRestr X Xn U Un f dt Uc) ∧ Row out tw n (hsParabOptiStep Xn X U Un f dt Uc) := by
  obtain ⟨a, e1, h1⟩ := hF _ _ _ _ hx hu
  obtain ⟨b, e2, h2⟩ := hF _ _ _ _ hxn hun
  obtain ⟨s, e3, h3⟩ := row_add lib hx hxn
  obtain ⟨d, e4, h4⟩ := row_sub lib h1 h2
  obtain ⟨c, e5, h5⟩ := row_add lib (row_scale (1 / 2) h3) (row_scale (dt / 8) h4)
  obtain ⟨k, e6, h6⟩ := hc _ _ h5
  obtain ⟨t, e7, h7⟩ := row_add lib h1 (row_scale 4 h6)
  obtain ⟨w, e8, h8⟩ := row_add lib h7 h2
  obtain ⟨y, e9, h9⟩ := row_add lib hx (row_scale (dt / 6) h8)
  obtain ⟨r, e10, h10⟩ := row_sub lib h9 hxn
  exact ⟨r, by simp only [hsParabRA, bind, Except.bind, e1, e2, e3, e4, e5, e6, e7, e8, e9, e10], h10, h10⟩

/-- C146. -/
theorem C146_hs_parab (hF : Calls F tw n m f) (hx : Row x tw n X) (hxn : Row xn tw n Xn) (hu : Row u tw m U) (hun : Row un tw m Un) (huc : Row uc tw m Uc) :
    ∃ out, hsParabRA lib x xn u un F dt uc = .ok out ∧ Row out tw n (hsParabRestr X Xn U Un f dt Uc) ∧ Row out tw n (hsParabOptiStep Xn X U Un f dt Uc) :=
  hs_parab_gen lib dt hF hx hxn hu hun fun c Y hY => hF _ _ _ _ hY huc

theorem row_middle (hu : Row u tw m U) (hun : Row un tw m Un) : ∃ o, middle lib u un = .ok o ∧ Row o tw m ((1 / 2 : ℝ) • (U + Un)) := by
  obtain ⟨s, e, h⟩ := row_add lib hu hun
  exact ⟨_, by simp only [middle, bind, Except.bind, e, pure, Except.pure], row_scale (1 / 2) h⟩

/-- C146. -/
theorem C146_hs (hF : Calls F tw n m f) (hx : Row x tw n X) (hxn : Row xn tw n Xn) (hu : Row u tw m U) (hun : Row un tw m Un) :
    ∃ out, hsRA lib x xn u un F dt = .ok out ∧ Row out tw n (hsRestr X Xn U Un f dt) ∧ Row out tw n (hsOptiStep Xn X U Un f dt) := by
  obtain ⟨c, e, h⟩ := row_middle lib hu hun
  obtain ⟨o, e', h', h''⟩ := C146_hs_parab lib dt hF hx hxn hu hun h
  exact ⟨o, by simp only [hsRA, bind, Except.bind, e, e'], h', h''⟩

end First

/-! ### C146: second order -/

section Second
variable {X Xn : (ℕ → ℝ) × (ℕ → ℝ)} {U Un Uc : ℕ → ℝ} {f : (ℕ → ℝ) × (ℕ → ℝ) → (ℕ → ℝ) → (ℕ → ℝ) × (ℕ → ℝ)}

/-- C146. -/
theorem C146_trapz_mod (hd : 0 < dim) (hfl : x.int = false) (hF : Calls2 F tw dim m f) (hx : Row x tw (2 * dim) (join dim X)) (hxn : Row xn tw (2 * dim) (join dim Xn))
    (hu : Row u tw m U) (hun : Row un tw m Un) :
    (∃ out, trapzModRA lib x xn u un F dt = .ok out ∧ Row out tw (2 * dim) (join dim (trapzModRestr X Xn U Un f dt))) ∧
      (tw = false → ∃ out, trapzModSA lib xn x u un F dt = .ok out ∧ Row out tw (2 * dim) (join dim (trapzModOptiStep Xn X U Un f dt))) := by
  obtain ⟨a, ea, ha⟩ := hF _ _ _ _ hx hu
  obtain ⟨b, eb, hb⟩ := hF _ _ _ _ hxn hun
  have hk := index_row (M := 2) (by omega) hx.holds
  constructor
  · obtain ⟨s1, e1, h1⟩ := row_add lib (row_last hd ha) (row_last hd hb)
    obtain ⟨s2, e2, h2⟩ := row_add lib (row_last hd hx) (row_scale (dt / 2) h1)
    obtain ⟨s3, e3, h3⟩ := row_add lib (row_first hd hx) (row_scale dt (row_last hd hx))
    obtain ⟨s4, e4, h4⟩ := row_add lib (row_last hd hb) (row_scale 2 (row_last hd ha))
    obtain ⟨s5, e5, h5⟩ := row_add lib h3 (row_scale (dt ^ 2 / 6) h4)
    obtain ⟨d, d', e6, e7, h6⟩ := row_put_last_first lib hd hx hfl h5 h2
    obtain ⟨o, e8, h8⟩ := row_sub lib hxn h6
    refine ⟨o, by simp only [trapzModRA, bind, Except.bind, hk, ea, eb, e1, e2, e3, e4, e5, e6, e7, e8], row_congr h8 ?_⟩
    rw [join_sub]
    rfl
  · intro _
    obtain ⟨s1, e1, h1⟩ := row_add lib (row_rest ha) (row_rest hb)
    obtain ⟨s2, e2, h2⟩ := row_add lib (row_rest hx) (row_scale (dt / 2) h1)
    obtain ⟨s2', e2', h2'⟩ := row_sub lib h2 (row_rest hxn)
    obtain ⟨s3, e3, h3⟩ := row_add lib (row_first hd hx) (row_scale dt (row_rest hx))
    obtain ⟨s4, e4, h4⟩ := row_add lib (row_rest hb) (row_scale 2 (row_rest ha))
    obtain ⟨s5, e5, h5⟩ := row_add lib h3 (row_scale (dt ^ 2 / 6) h4)
    obtain ⟨s5', e5', h5'⟩ := row_sub lib h5 (row_first hd hxn)
    obtain ⟨d, d', e6, e7, h6⟩ := row_put_rest_first lib hx hfl h5' h2'
    exact ⟨d', by simp only [trapzModSA, bind, Except.bind, hk, ea, eb, e1, e2, e2', e3, e4, e5, e5', e6, e7], h6⟩

theorem row_hsModMid {q qn v vn a b : Cell} {Q Qn V Vn A B : ℕ → ℝ} (hq : Row q tw dim Q) (hqn : Row qn tw dim Qn) (hv : Row v tw dim V) (hvn : Row vn tw dim Vn)
    (ha : Row a tw dim A) (hb : Row b tw dim B) :
    ∃ c, hsModMidA lib q qn v vn a b dt = .ok c ∧ Row c.1 tw dim (hsModXc (Q, V) (Qn, Vn) A B dt).1 ∧ Row c.2 tw dim (hsModXc (Q, V) (Qn, Vn) A B dt).2 := by
  obtain ⟨s1, e1, h1⟩ := row_add lib (row_scale 13 hq) (row_scale 3 hqn)
  obtain ⟨s2, e2, h2⟩ := row_add lib (row_scale (1 / 16) h1) (row_scale (5 * dt / 16) hv)
  obtain ⟨s3, e3, h3⟩ := row_sub lib (row_scale 4 ha) hb
  obtain ⟨s4, e4, h4⟩ := row_add lib h2 (row_scale (dt ^ 2 / 96) h3)
  obtain ⟨s5, e5, h5⟩ := row_add lib hv hvn
  obtain ⟨s6, e6, h6⟩ := row_sub lib ha hb
  obtain ⟨s7, e7, h7⟩ := row_add lib (row_scale (1 / 2) h5) (row_scale (dt / 8) h6)
  exact ⟨(s4, s7), by simp only [hsModMidA, bind, Except.bind, pure, Except.pure, e1, e2, e3, e4, e5, e6, e7], h4, h7⟩

theorem hs_mod_parab_gen (hd : 0 < dim) (hfl : x.int = false) (hF : Calls2 F tw dim m f) (hx : Row x tw (2 * dim) (join dim X))
    (hxn : Row xn tw (2 * dim) (join dim Xn)) (hu : Row u tw m U) (hun : Row un tw m Un) (hc : At2 F tw dim uc fun x => f x Uc) :
    (∃ out, hsModParabRA lib x xn u un F dt uc = .ok out ∧ Row out tw (2 * dim) (join dim (hsModParabRestr X Xn U Un f dt Uc))) ∧
      (tw = false → ∃ out, hsModParabSA lib xn x u un F dt uc = .ok out ∧ Row out tw (2 * dim) (join dim (hsModParabOptiStep Xn X U Un f dt Uc))) := by
  obtain ⟨a, ea, ha⟩ := hF _ _ _ _ hx hu
  obtain ⟨b, eb, hb⟩ := hF _ _ _ _ hxn hun
  have hk := index_row (M := 2) (by omega) hx.holds
  constructor
  · obtain ⟨c, ec, hc1, hc2⟩ := row_hsModMid lib dt (row_first hd hx) (row_first hd hxn) (row_last hd hx) (row_last hd hxn) (row_last hd ha) (row_last hd hb)
    obtain ⟨w, w', e1, e2, h2⟩ := row_put_first_last lib hd hx hfl hc1 hc2
    obtain ⟨g, eg, hg⟩ := hc _ _ h2
    obtain ⟨s1, e3, h3⟩ := row_add lib (row_last hd ha) (row_scale 4 (row_last hd hg))
    obtain ⟨s2, e4, h4⟩ := row_add lib h3 (row_last hd hb)
    obtain ⟨s3, e5, h5⟩ := row_add lib (row_last hd hx) (row_scale (dt / 6) h4)
    obtain ⟨s4, e6, h6⟩ := row_add lib (row_first hd hx) (row_scale dt (row_last hd hx))
    obtain ⟨s5, e7, h7⟩ := row_add lib (row_last hd ha) (row_scale 2 (row_last hd hg))
    obtain ⟨s6, e8, h8⟩ := row_add lib h6 (row_scale (dt ^ 2 / 6) h7)
    obtain ⟨d, d', e9, e10, h10⟩ := row_put_last_first lib hd hx hfl h8 h5
    obtain ⟨o, e11, h11⟩ := row_sub lib hxn h10
    refine ⟨o, by simp only [hsModParabRA, bind, Except.bind, hk, ea, eb, ec, e1, e2, eg, e3, e4, e5, e6, e7, e8, e9, e10, e11], row_congr h11 ?_⟩
    rw [join_sub]
    rfl
  · intro _
    obtain ⟨c, ec, hc1, hc2⟩ := row_hsModMid lib dt (row_first hd hx) (row_first hd hxn) (row_rest hx) (row_rest hxn) (row_rest ha) (row_rest hb)
    obtain ⟨w, w', e1, e2, h2⟩ := row_put_first_rest lib hx hfl hc1 hc2
    obtain ⟨g, eg, hg⟩ := hc _ _ h2
    obtain ⟨s1, e3, h3⟩ := row_add lib (row_rest ha) (row_scale 4 (row_rest hg))
    obtain ⟨s2, e4, h4⟩ := row_add lib h3 (row_rest hb)
    obtain ⟨s3, e5, h5⟩ := row_add lib (row_rest hx) (row_scale (dt / 6) h4)
    obtain ⟨s3', e5', h5'⟩ := row_sub lib h5 (row_rest hxn)
    obtain ⟨s4, e6, h6⟩ := row_add lib (row_first hd hx) (row_scale dt (row_rest hx))
    obtain ⟨s5, e7, h7⟩ := row_add lib (row_rest ha) (row_scale 2 (row_rest hg))
    obtain ⟨s6, e8, h8⟩ := row_add lib h6 (row_scale (dt ^ 2 / 6) h7)
    obtain ⟨s6', e8', h8'⟩ := row_sub lib h8 (row_first hd hxn)
    obtain ⟨d, d', e9, e10, h10⟩ := row_put_rest_first lib hx hfl h8' h5'
    exact ⟨d', by simp only [hsModParabSA, bind, Except.bind, hk, ea, eb, ec, e1, e2, eg, e3, e4, e5, e5', e6, e7, e8, e8', e9, e10], h10⟩

/-- C146. -/
theorem C146_hs_mod_parab (hd : 0 < dim) (hfl : x.int = false) (hF : Calls2 F tw dim m f) (hx : Row x tw (2 * dim) (join dim X))
    (hxn : Row xn tw (2 * dim) (join dim Xn)) (hu : Row u tw m U) (hun : Row un tw m Un) (huc : Row uc tw m Uc) :
    (∃ out, hsModParabRA lib x xn u un F dt uc = .ok out ∧ Row out tw (2 * dim) (join dim (hsModParabRestr X Xn U Un f dt Uc))) ∧
      (tw = false → ∃ out, hsModParabSA lib xn x u un F dt uc = .ok out ∧ Row out tw (2 * dim) (join dim (hsModParabOptiStep Xn X U Un f dt Uc))) :=
  hs_mod_parab_gen lib dt hd hfl hF hx hxn hu hun fun c Y hY => hF _ _ _ _ hY huc

/-- C146. -/
theorem C146_hs_mod (hd : 0 < dim) (hfl : x.int = false) (hF : Calls2 F tw dim m f) (hx : Row x tw (2 * dim) (join dim X)) (hxn : Row xn tw (2 * dim) (join dim Xn))
    (hu : Row u tw m U) (hun : Row un tw m Un) :
    (∃ out, hsModRA lib x xn u un F dt = .ok out ∧ Row out tw (2 * dim) (join dim (hsModRestr X Xn U Un f dt))) ∧
      (tw = false → ∃ out, hsModSA lib xn x u un F dt = .ok out ∧ Row out tw (2 * dim) (join dim (hsModOptiStep Xn X U Un f dt))) := by
  obtain ⟨c, e, h⟩ := row_middle lib hu hun
  obtain ⟨⟨o, e1, h1⟩, g⟩ := C146_hs_mod_parab lib dt hd hfl hF hx hxn hu hun h
  exact ⟨⟨o, by simp only [hsModRA, bind, Except.bind, e, e1], h1⟩, fun ht => let ⟨o', e2, h2⟩ := g ht; ⟨o', by simp only [hsModSA, bind, Except.bind, e, e2], h2⟩⟩

theorem row_hsjMid {q v vn a b : Cell} {Q Qn V Vn A B : ℕ → ℝ} (hq : Row q tw dim Q) (hv : Row v tw dim V) (hvn : Row vn tw dim Vn)
    (ha : Row a tw dim A) (hb : Row b tw dim B) :
    ∃ c, hsjMidA lib q v vn a b dt = .ok c ∧ Row c.1 tw dim (hsjXc (Q, V) (Qn, Vn) A B dt).1 ∧ Row c.2 tw dim (hsjXc (Q, V) (Qn, Vn) A B dt).2 := by
  obtain ⟨s1, e1, h1⟩ := row_add lib (row_scale 218 hv) (row_scale 32 hvn)
  obtain ⟨s2, e2, h2⟩ := row_add lib hq (row_scale (dt / 625) h1)
  obtain ⟨s3, e3, h3⟩ := row_sub lib (row_scale 82 ha) (row_scale 28 hb)
  obtain ⟨s4, e4, h4⟩ := row_add lib h2 (row_scale (dt ^ 2 / 1875) h3)
  obtain ⟨s5, e5, h5⟩ := row_add lib (row_scale 81 hv) (row_scale 44 hvn)
  obtain ⟨s6, e6, h6⟩ := row_sub lib (row_scale 18 ha) (row_scale 12 hb)
  obtain ⟨s7, e7, h7⟩ := row_add lib (row_scale (1 / 125) h5) (row_scale (dt / 125) h6)
  exact ⟨(s4, s7), by simp only [hsjMidA, bind, Except.bind, pure, Except.pure, e1, e2, e3, e4, e5, e6, e7], h4, h7⟩

theorem hsj_parab_gen (hd : 0 < dim) (hfl : x.int = false) (hF : Calls2 F tw dim m f) (hx : Row x tw (2 * dim) (join dim X))
    (hxn : Row xn tw (2 * dim) (join dim Xn)) (hu : Row u tw m U) (hun : Row un tw m Un) (hc : At2 F tw dim uc fun x => f x Uc) :
    (∃ out, hsjParabRA lib x xn u un F dt uc = .ok out ∧ Row out tw (2 * dim) (join dim (hsjParabRestr X Xn U Un f dt Uc))) ∧
      (tw = false → ∃ out, hsjParabSA lib xn x u un F dt uc = .ok out ∧ Row out tw (2 * dim) (join dim (hsjParabOptiStep Xn X U Un f dt Uc))) := by
  obtain ⟨a, ea, ha⟩ := hF _ _ _ _ hx hu
  obtain ⟨b, eb, hb⟩ := hF _ _ _ _ hxn hun
  have hk := index_row (M := 2) (by omega) hx.holds
  constructor
  · obtain ⟨c, ec, hc1, hc2⟩ := row_hsjMid (Qn := Xn.1) lib dt (row_first hd hx) (row_last hd hx) (row_last hd hxn) (row_last hd ha) (row_last hd hb)
    obtain ⟨w, w', e1, e2, h2⟩ := row_put_first_last lib hd hx hfl hc1 hc2
    obtain ⟨g, eg, hg⟩ := hc _ _ h2
    obtain ⟨s1, e3, h3⟩ := row_add lib (row_scale 3 (row_last hd ha)) (row_scale 25 (row_last hd hg))
    obtain ⟨s2, e4, h4⟩ := row_add lib h3 (row_scale 8 (row_last hd hb))
    obtain ⟨s3, e5, h5⟩ := row_add lib (row_last hd hx) (row_scale (dt / 36) h4)
    obtain ⟨s4, e6, h6⟩ := row_add lib (row_first hd hx) (row_scale dt (row_last hd hx))
    obtain ⟨s5, e7, h7⟩ := row_add lib (row_scale 9 (row_last hd ha)) (row_scale 25 (row_last hd hg))
    obtain ⟨s5', e7', h7'⟩ := row_add lib h7 (row_scale 2 (row_last hd hb))
    obtain ⟨s6, e8, h8⟩ := row_add lib h6 (row_scale (dt ^ 2 / 72) h7')
    obtain ⟨d, d', e9, e10, h10⟩ := row_put_last_first lib hd hx hfl h8 h5
    obtain ⟨o, e11, h11⟩ := row_sub lib hxn h10
    refine ⟨o, by simp only [hsjParabRA, bind, Except.bind, hk, ea, eb, ec, e1, e2, eg, e3, e4, e5, e6, e7, e7', e8, e9, e10, e11], row_congr h11 ?_⟩
    rw [join_sub]
    rfl
  · intro _
    obtain ⟨c, ec, hc1, hc2⟩ := row_hsjMid (Qn := Xn.1) lib dt (row_first hd hx) (row_rest hx) (row_rest hxn) (row_rest ha) (row_rest hb)
    obtain ⟨w, w', e1, e2, h2⟩ := row_put_first_rest lib hx hfl hc1 hc2
    obtain ⟨g, eg, hg⟩ := hc _ _ h2
    obtain ⟨s1, e3, h3⟩ := row_add lib (row_scale 3 (row_rest ha)) (row_scale 25 (row_rest hg))
    obtain ⟨s2, e4, h4⟩ := row_add lib h3 (row_scale 8 (row_rest hb))
    obtain ⟨s3, e5, h5⟩ := row_add lib (row_rest hx) (row_scale (dt / 36) h4)
    obtain ⟨s3', e5', h5'⟩ := row_sub lib h5 (row_rest hxn)
    obtain ⟨s4, e6, h6⟩ := row_add lib (row_first hd hx) (row_scale dt (row_rest hx))
    obtain ⟨s5, e7, h7⟩ := row_add lib (row_scale 9 (row_rest ha)) (row_scale 25 (row_rest hg))
    obtain ⟨s5', e7', h7'⟩ := row_add lib h7 (row_scale 2 (row_rest hb))
    obtain ⟨s6, e8, h8⟩ := row_add lib h6 (row_scale (dt ^ 2 / 72) h7')
    obtain ⟨s6', e8', h8'⟩ := row_sub lib h8 (row_first hd hxn)
    obtain ⟨d, d', e9, e10, h10⟩ := row_put_rest_first lib hx hfl h8' h5'
    exact ⟨d', by simp only [hsjParabSA, bind, Except.bind, hk, ea, eb, ec, e1, e2, eg, e3, e4, e5, e5', e6, e7, e7', e8, e8', e9, e10], h10⟩

/-- C146. -/
theorem C146_hsj_parab (hd : 0 < dim) (hfl : x.int = false) (hF : Calls2 F tw dim m f) (hx : Row x tw (2 * dim) (join dim X))
    (hxn : Row xn tw (2 * dim) (join dim Xn)) (hu : Row u tw m U) (hun : Row un tw m Un) (huc : Row uc tw m Uc) :
    (∃ out, hsjParabRA lib x xn u un F dt uc = .ok out ∧ Row out tw (2 * dim) (join dim (hsjParabRestr X Xn U Un f dt Uc))) ∧
      (tw = false → ∃ out, hsjParabSA lib xn x u un F dt uc = .ok out ∧ Row out tw (2 * dim) (join dim (hsjParabOptiStep Xn X U Un f dt Uc))) :=
  hsj_parab_gen lib dt hd hfl hF hx hxn hu hun fun c Y hY => hF _ _ _ _ hY huc

/-- C146. -/
theorem C146_hsj (hd : 0 < dim) (hfl : x.int = false) (hF : Calls2 F tw dim m f) (hx : Row x tw (2 * dim) (join dim X)) (hxn : Row xn tw (2 * dim) (join dim Xn))
    (hu : Row u tw m U) (hun : Row un tw m Un) :
    (∃ out, hsjRA lib x xn u un F dt = .ok out ∧ Row out tw (2 * dim) (join dim (hsjRestr X Xn U Un f dt))) ∧
      (tw = false → ∃ out, hsjSA lib xn x u un F dt = .ok out ∧ Row out tw (2 * dim) (join dim (hsjOptiStep Xn X U Un f dt))) := by
  obtain ⟨c, e, h⟩ := row_add lib (row_scale 0.6 hu) (row_scale 0.4 hun)
  obtain ⟨⟨o, e1, h1⟩, g⟩ := C146_hsj_parab lib dt hd hfl hF hx hxn hu hun h
  exact ⟨⟨o, by simp only [hsjRA, bind, Except.bind, e, e1], h1⟩, fun ht => let ⟨o', e2, h2⟩ := g ht; ⟨o', by simp only [hsjSA, bind, Except.bind, e, e2], h2⟩⟩

end Second

/-! ### C146: what the hypotheses are for -/

/-- C146, negation: the function of a mass without forces, `[v, 0]`, returned as a column by a NumPy function does not raise; the array is a square. -/
theorem C146_column_refuted : ∃ (F : DynA) (x xn u : Cell), Row x true 2 (fun j => j) ∧ Row xn true 2 (fun j => j) ∧ Row u true 1 (fun _ => 0) ∧
    (∀ c X, Row c true 2 X → ∃ o, F c u = .ok o ∧ Col o 2 (fun j => if j = 0 then X 1 else 0)) ∧
      ∃ out, eulerRA .numpy x xn u u F 1 = .ok out ∧ out.rows = 2 ∧ out.cols = 2 := by
  refine ⟨fun c _ => .ok ⟨true, 2, 1, false, fun i _ => if i = 0 then c.val 0 1 else 0⟩, ⟨true, 1, 2, false, fun _ j => j⟩, ⟨true, 1, 2, false, fun _ j => j⟩,
    ⟨true, 1, 1, false, fun _ _ => 0⟩, ⟨rfl, rfl, rfl, fun _ _ => rfl⟩, ⟨rfl, rfl, rfl, fun _ _ => rfl⟩, ⟨rfl, rfl, rfl, fun _ _ => rfl⟩, ?_, ?_⟩
  · intro c X h
    refine ⟨_, rfl, rfl, rfl, rfl, fun j _ => ?_⟩
    dsimp only
    rw [h.2.2.2 1 (by norm_num)]
  · refine ⟨_, rfl, rfl, rfl⟩

/-- C146, negation: with a state of integers the modified trapezoidal restriction discards decimals. The mass is at rest in 0, the force is 1 and `dt` is 1. -/
theorem C146_int_refuted : ∃ (F : DynA) (x xn u out : Cell), x.int = true ∧ Calls2 F false 1 1 (fun x U => (x.2, U)) ∧ Row x false 2 (join 1 (0, 0)) ∧
    Row xn false 2 (join 1 (0, 1)) ∧ Row u false 1 1 ∧ trapzModRA .numpy x xn u u F 1 = .ok out ∧
      out.val 0 0 ≠ join 1 (trapzModRestr (0, 0) (0, 1) 1 1 (fun x U => (x.2, U)) 1) 0 := by
  refine ⟨fun c d => .ok ⟨false, 1, 2, false, fun _ j => if j = 0 then c.val 0 1 else d.val 0 (j - 1)⟩, ⟨false, 1, 2, true, fun _ _ => 0⟩,
    ⟨false, 1, 2, false, fun _ j => if j = 0 then 0 else 1⟩, ⟨false, 1, 1, false, fun _ _ => 1⟩, _, rfl, ?_, ⟨rfl, rfl, rfl, ?_⟩, ⟨rfl, rfl, rfl, ?_⟩,
    ⟨rfl, rfl, rfl, fun _ _ => rfl⟩, rfl, ?_⟩
  · intro c d x U hc hd
    refine ⟨_, rfl, rfl, rfl, rfl, fun j hj => ?_⟩
    obtain rfl | rfl : j = 0 ∨ j = 1 := by omega
    · simpa [join] using hc.2.2.2 1 (by norm_num)
    · simpa [join] using hd.2.2.2 0 (by norm_num)
  · intro j _
    simp [join]
  · intro j _
    obtain rfl | rfl : j = 0 ∨ j = 1 := by omega
    · simp [join]
    · simp [join]
  · have h : join 1 (trapzModRestr (0, 0) (0, 1) 1 1 (fun x U => (x.2, U)) 1) 0 = (-1 / 2 : ℝ) := by
      simp [join, trapzModRestr]
      norm_num
    rw [h]
    simp [pick, Cell.get, store, Cuts.first, Cuts.last, vecLen, scale]
    rw [show (6⁻¹ * (1 + 2) : ℝ) = 1 / 2 by norm_num, trunc_half]
    norm_num

/-! ### C147 -/

omit lib dt in
theorem fit_row {c : Cell} {f : ℕ → ℝ} (h : Vect c n f) : ∃ o, fit 1 n c = .ok o ∧ o.int = false ∧ Row o true n f := by
  rcases h with ⟨h1, h2, h3⟩ | ⟨h1, h2, h3⟩
  · exact ⟨{ c with two := true, int := false }, by rw [fit, if_pos ⟨h1, h2⟩], rfl, rfl, h1, h2, h3⟩
  · by_cases hn : n = 1
    · subst hn
      refine ⟨{ c with two := true, int := false }, by rw [fit, if_pos ⟨h1, h2⟩], rfl, rfl, h1, h2, fun j hj => ?_⟩
      obtain rfl : j = 0 := by omega
      exact h3 0 hj
    · exact ⟨_, by rw [fit, if_neg (by rw [h1]; exact fun h => hn h.1), if_pos ⟨h1, h2, .inr h2⟩], rfl, rfl, rfl, rfl, h3⟩

omit lib dt in
theorem fit_col {c : Cell} {f : ℕ → ℝ} (h : Vect c n f) : ∃ o, fit n 1 c = .ok o ∧ Col o n f := by
  rcases h with ⟨h1, h2, h3⟩ | ⟨h1, h2, h3⟩
  · by_cases hn : n = 1
    · subst hn
      refine ⟨{ c with two := true, int := false }, by rw [fit, if_pos ⟨h1, h2⟩], rfl, h1, h2, fun j hj => ?_⟩
      obtain rfl : j = 0 := by omega
      exact h3 0 hj
    · exact ⟨_, by rw [fit, if_neg (by rw [h1]; exact fun h => hn h.1.symm), if_pos ⟨h1, h2, .inl h1⟩], rfl, rfl, rfl, h3⟩
  · exact ⟨{ c with two := true, int := false }, by rw [fit, if_pos ⟨h1, h2⟩], rfl, h1, h2, h3⟩

section Made
variable {X Xn : (ℕ → ℝ) × (ℕ → ℝ)} {U Un Uc : ℕ → ℝ} {f : (ℕ → ℝ) × (ℕ → ℝ) → (ℕ → ℝ) → (ℕ → ℝ) × (ℕ → ℝ)}

omit lib in
theorem made_seven {g : Cell → Cell → Cell → Cell → DynA → ℝ → Except RErr Cell} {R : ℕ → ℝ}
    (hx : Vect x (2 * dim) (join dim X)) (hxn : Vect xn (2 * dim) (join dim Xn)) (hu : Vect u m U) (hun : Vect un m Un)
    (hg : ∀ x xn u un, x.int = false → Row x true (2 * dim) (join dim X) → Row xn true (2 * dim) (join dim Xn) → Row u true m U → Row un true m Un →
      ∃ out, g x xn u un F dt = .ok out ∧ Row out true (2 * dim) R) :
    ∃ out, restriction2casadi (.seven g) F dim m 0 x xn u un dt none = .ok out ∧ Row out true (2 * dim) R := by
  obtain ⟨a, ea, ia, ha⟩ := fit_row hx
  obtain ⟨b, eb, -, hb⟩ := fit_row hxn
  obtain ⟨c, ec, -, hc⟩ := fit_row hu
  obtain ⟨d, ed, -, hd⟩ := fit_row hun
  obtain ⟨o, eo, ho⟩ := hg a b c d ia ha hb hc hd
  exact ⟨o, by simp only [restriction2casadi, ne_eq, not_true_eq_false, if_false, bind, Except.bind, ea, eb, ec, ed, eo, toC], ho⟩

omit lib in
theorem made_eight {g : Cell → Cell → Cell → Cell → DynA → ℝ → Cell → Except RErr Cell} {R : ℕ → ℝ} {k : ℕ} (hk : k ≠ 0)
    (hx : Vect x (2 * dim) (join dim X)) (hxn : Vect xn (2 * dim) (join dim Xn)) (hu : Vect u m U) (hun : Vect un m Un) (huc : Vect uc k Uc)
    (hg : ∀ x xn u un uc, x.int = false → Row x true (2 * dim) (join dim X) → Row xn true (2 * dim) (join dim Xn) → Row u true m U → Row un true m Un →
      Col uc k Uc → ∃ out, g x xn u un F dt uc = .ok out ∧ Row out true (2 * dim) R) :
    ∃ out, restriction2casadi (.eight g) F dim m k x xn u un dt (some uc) = .ok out ∧ Row out true (2 * dim) R := by
  obtain ⟨a, ea, ia, ha⟩ := fit_row hx
  obtain ⟨b, eb, -, hb⟩ := fit_row hxn
  obtain ⟨c, ec, -, hc⟩ := fit_row hu
  obtain ⟨d, ed, -, hd⟩ := fit_row hun
  obtain ⟨s, es, hs⟩ := fit_col huc
  obtain ⟨o, eo, ho⟩ := hg a b c d s ia ha hb hc hd hs
  exact ⟨o, by simp only [restriction2casadi, if_neg hk, bind, Except.bind, ea, eb, ec, ed, es, eo, toC], ho⟩

/-- The array function as one that computes first order dynamics on arrays of coordinates and velocities. -/
def split (dim : ℕ) (Y : ℕ → ℝ) : (ℕ → ℝ) × (ℕ → ℝ) := (Y, fun j => Y (dim + j))

omit lib dt in
theorem join_split (Y : ℕ → ℝ) : join dim (split dim Y) = Y := by
  funext j
  simp only [join, split]
  split_ifs with h
  · rfl
  · congr 1
    omega

omit lib dt in
theorem Calls2.calls (hF : Calls2 F tw dim m f) : Calls F tw (2 * dim) m fun Y U => join dim (f (split dim Y) U) :=
  fun c d Y U hc hd => hF c d (split dim Y) U (by rw [join_split]; exact hc) hd

/-- C147. -/
theorem C147_seven (hd : 0 < dim) (hF : Calls2 F true dim m f) (hx : Vect x (2 * dim) (join dim X)) (hxn : Vect xn (2 * dim) (join dim Xn))
    (hu : Vect u m U) (hun : Vect un m Un) :
    (∃ out, restriction2casadi (.seven (trapzModRA .casadi)) F dim m 0 x xn u un dt none = .ok out ∧ Row out true (2 * dim) (join dim (trapzModRestr X Xn U Un f dt))) ∧
    (∃ out, restriction2casadi (.seven (hsModRA .casadi)) F dim m 0 x xn u un dt none = .ok out ∧ Row out true (2 * dim) (join dim (hsModRestr X Xn U Un f dt))) ∧
    (∃ out, restriction2casadi (.seven (hsjRA .casadi)) F dim m 0 x xn u un dt none = .ok out ∧ Row out true (2 * dim) (join dim (hsjRestr X Xn U Un f dt))) :=
  ⟨made_seven dt hx hxn hu hun fun _ _ _ _ hi h1 h2 h3 h4 => (C146_trapz_mod .casadi dt hd hi hF h1 h2 h3 h4).1,
    made_seven dt hx hxn hu hun fun _ _ _ _ hi h1 h2 h3 h4 => (C146_hs_mod .casadi dt hd hi hF h1 h2 h3 h4).1,
    made_seven dt hx hxn hu hun fun _ _ _ _ hi h1 h2 h3 h4 => (C146_hsj .casadi dt hd hi hF h1 h2 h3 h4).1⟩

end Made

/-- C147: the functions of first order. -/
theorem C147_first {X Xn U Un : ℕ → ℝ} {f : (ℕ → ℝ) → (ℕ → ℝ) → ℕ → ℝ} (hF : Calls F true (2 * dim) m f) (hx : Vect x (2 * dim) X) (hxn : Vect xn (2 * dim) Xn)
    (hu : Vect u m U) (hun : Vect un m Un) :
    (∃ out, restriction2casadi (.seven (eulerRA .casadi)) F dim m 0 x xn u un dt none = .ok out ∧ Row out true (2 * dim) (eulerRestr X Xn U Un f dt)) ∧
    (∃ out, restriction2casadi (.seven (trapzRA .casadi)) F dim m 0 x xn u un dt none = .ok out ∧ Row out true (2 * dim) (trapzRestr X Xn U Un f dt)) ∧
    (∃ out, restriction2casadi (.seven (rk4RA .casadi)) F dim m 0 x xn u un dt none = .ok out ∧ Row out true (2 * dim) (rk4Restr X Xn U Un f dt)) ∧
    (∃ out, restriction2casadi (.seven (hsRA .casadi)) F dim m 0 x xn u un dt none = .ok out ∧ Row out true (2 * dim) (hsRestr X Xn U Un f dt)) := by
  rw [← join_split (dim := dim) X] at hx
  rw [← join_split (dim := dim) Xn] at hxn
  refine ⟨made_seven dt hx hxn hu hun fun _ _ _ _ hi h1 h2 h3 h4 => ?_, made_seven dt hx hxn hu hun fun _ _ _ _ hi h1 h2 h3 h4 => ?_,
    made_seven dt hx hxn hu hun fun _ _ _ _ hi h1 h2 h3 h4 => ?_, made_seven dt hx hxn hu hun fun _ _ _ _ hi h1 h2 h3 h4 => ?_⟩ <;> rw [join_split] at h1 h2
  · exact C146_euler .casadi dt hF h1 h2 h3
  · exact (C146_trapz .casadi dt hF h1 h2 h3 h4).1
  · exact (C146_rk4 .casadi dt hF h1 h2 h3 h4 h3).1
  · obtain ⟨o, e, h, -⟩ := C146_hs .casadi dt hF h1 h2 h3 h4
    exact ⟨o, e, h⟩

/-- C147: the functions with the controls of the middle as parameters of the scheme, if the dynamics accept them as a column. -/
theorem C147_eight {X Xn : (ℕ → ℝ) × (ℕ → ℝ)} {U Un Uc : ℕ → ℝ} {f : (ℕ → ℝ) × (ℕ → ℝ) → (ℕ → ℝ) → (ℕ → ℝ) × (ℕ → ℝ)} (hd : 0 < dim) (hm : m ≠ 0)
    (hF : Calls2 F true dim m f) (hc : ∀ d, Col d m Uc → At2 F true dim d fun x => f x Uc) (hx : Vect x (2 * dim) (join dim X)) (hxn : Vect xn (2 * dim) (join dim Xn))
    (hu : Vect u m U) (hun : Vect un m Un) (huc : Vect uc m Uc) :
    (∃ out, restriction2casadi (.eight (hsModParabRA .casadi)) F dim m m x xn u un dt (some uc) = .ok out ∧
      Row out true (2 * dim) (join dim (hsModParabRestr X Xn U Un f dt Uc))) ∧
    (∃ out, restriction2casadi (.eight (hsjParabRA .casadi)) F dim m m x xn u un dt (some uc) = .ok out ∧
      Row out true (2 * dim) (join dim (hsjParabRestr X Xn U Un f dt Uc))) :=
  ⟨made_eight dt hm hx hxn hu hun huc fun _ _ _ _ _ hi h1 h2 h3 h4 h5 => (hs_mod_parab_gen .casadi dt hd hi hF h1 h2 h3 h4 (hc _ h5)).1,
    made_eight dt hm hx hxn hu hun huc fun _ _ _ _ _ hi h1 h2 h3 h4 h5 => (hsj_parab_gen .casadi dt hd hi hF h1 h2 h3 h4 (hc _ h5)).1⟩

/-- C147: Hermite-Simpson with the controls of the middle. -/
theorem C147_eight_first {X Xn U Un Uc : ℕ → ℝ} {f : (ℕ → ℝ) → (ℕ → ℝ) → ℕ → ℝ} (hm : m ≠ 0) (hF : Calls F true (2 * dim) m f)
    (hc : ∀ d, Col d m Uc → At F true (2 * dim) d fun x => f x Uc) (hx : Vect x (2 * dim) X) (hxn : Vect xn (2 * dim) Xn) (hu : Vect u m U) (hun : Vect un m Un)
    (huc : Vect uc m Uc) :
    ∃ out, restriction2casadi (.eight (hsParabRA .casadi)) F dim m m x xn u un dt (some uc) = .ok out ∧ Row out true (2 * dim) (hsParabRestr X Xn U Un f dt Uc) := by
  rw [← join_split (dim := dim) X] at hx
  rw [← join_split (dim := dim) Xn] at hxn
  refine made_eight dt hm hx hxn hu hun huc fun _ _ _ _ _ hi h1 h2 h3 h4 h5 => ?_
  rw [join_split] at h1 h2
  obtain ⟨o, e, h, -⟩ := hs_parab_gen .casadi dt hF h1 h2 h3 h4 (hc _ h5)
  exact ⟨o, e, h⟩

/-- C147: parameters of the scheme for a function without them are an error, and so is a function with them but with none. -/
theorem C147_raises (g : Cell → Cell → Cell → Cell → DynA → ℝ → Except RErr Cell) (g' : Cell → Cell → Cell → Cell → DynA → ℝ → Cell → Except RErr Cell) {k : ℕ} (hk : k ≠ 0)
    (s : Option Cell) :
    restriction2casadi (.seven g) F dim m k x xn u un dt s = .error .value ∧ restriction2casadi (.eight g') F dim m 0 x xn u un dt s = .error .type := by
  simp [restriction2casadi, hk]

/-- C147, negation without `hc`: dynamics that add the controls to the velocities compute their result on all rows and are not defined on columns, and with two
controls the parameters of the scheme are a column. -/
theorem C147_column_refuted : ∃ (F : DynA) (f : (ℕ → ℝ) → (ℕ → ℝ) → ℕ → ℝ) (x u : Cell), Calls F true 2 2 f ∧ Row x true 2 0 ∧ Row u true 2 0 ∧
    (∃ out, hsParabRA .casadi x x u u F 1 u = .ok out) ∧
      restriction2casadi (.eight (hsParabRA .casadi)) F 1 2 2 x x u u 1 (some u) = .error (.inner (.arr .value)) := by
  refine ⟨add .casadi, fun X U => X + U, ⟨true, 1, 2, false, fun _ _ => 0⟩, ⟨true, 1, 2, false, fun _ _ => 0⟩, fun c d X U hc hd => row_add .casadi hc hd,
    ⟨rfl, rfl, rfl, fun _ _ => rfl⟩, ⟨rfl, rfl, rfl, fun _ _ => rfl⟩, ⟨_, rfl⟩, rfl⟩

/-- The dynamics of a mass with a force, on rows and on columns. -/
noncomputable def massF : DynA := fun c d => .ok ⟨true, 1, 2, false, fun _ j => if j = 0 then c.val 0 1 else d.val 0 0⟩

theorem massF_calls : Calls2 massF true 1 1 fun x U => (x.2, U) := by
  intro c d x U hc hd
  refine ⟨_, rfl, rfl, rfl, rfl, fun j hj => ?_⟩
  obtain rfl | rfl : j = 0 ∨ j = 1 := by omega
  · simpa [join] using hc.2.2.2 1 (by norm_num)
  · simpa [join] using hd.2.2.2 0 (by norm_num)

/-- The hypotheses of C146 and C147 are met by a mass with a force. -/
example : Calls2 massF true 1 1 (fun x U => (x.2, U)) ∧ (∀ Uc d, Col d 1 Uc → At2 massF true 1 d fun x => (x.2, Uc)) ∧
    Calls massF true (2 * 1) 1 (fun Y U => join 1 ((split 1 Y).2, U)) ∧
    ∃ x xn u, x.int = false ∧ Row x true (2 * 1) (join 1 (fun _ => 3, fun _ => 1)) ∧ Row xn true (2 * 1) (join 1 (fun _ => 4, fun _ => 2)) ∧ Row u true 1 (fun _ => 5) ∧
      Vect x (2 * 1) (join 1 (fun _ => 3, fun _ => 1)) ∧ Vect u 1 (fun _ => 5) := by
  refine ⟨massF_calls, fun Uc d hd c x hc => ?_, massF_calls.calls, ⟨true, 1, 2, false, fun _ j => join 1 (fun _ => 3, fun _ => 1) j⟩,
    ⟨true, 1, 2, false, fun _ j => join 1 (fun _ => 4, fun _ => 2) j⟩, ⟨true, 1, 1, false, fun _ _ => 5⟩, rfl, ⟨rfl, rfl, rfl, fun _ _ => rfl⟩,
    ⟨rfl, rfl, rfl, fun _ _ => rfl⟩, ⟨rfl, rfl, rfl, fun _ _ => rfl⟩, .inl ⟨rfl, rfl, fun _ _ => rfl⟩, .inl ⟨rfl, rfl, fun _ _ => rfl⟩⟩
  refine ⟨_, rfl, rfl, rfl, rfl, fun j hj => ?_⟩
  obtain rfl | rfl : j = 0 ∨ j = 1 := by omega
  · simpa [join] using hc.2.2.2 1 (by norm_num)
  · simpa [join] using hd.2.2.2 0 (by norm_num)

end Chords.Props
