import Verif.Model.Schemes
import Verif.Model.BuTd
import Verif.Model.Problem

/-! # Constraints of equispaced problems
chords/opti.py 2120-2283 (`_Equispaced.apply_scheme`), with the restriction functions of chords/piecewise.py 1172-1299 and
1361-1438 and chords/casadi.py 420-457 (`accelrestriction2casadi`, which only wraps the restriction).

The optimisation variables are real matrices (`Vars`), and so are those of the central points. `opti.subject_to(a == b)` is
the proposition that they are equal. The restrictions act on each coordinate separately, so they are applied to the numbers
of one coordinate. The schemes for second order ("mod" and "j") are only meant for `order = 2`. -/

namespace Chords.Equi
open Chords.BuTd Chords.Problem

/-- A restriction for one coordinate: levels at both ends, highest derivative at both ends, step, highest derivative at the
centre. -/
abbrev Restr := (ℕ → ℝ) → (ℕ → ℝ) → ℝ → ℝ → ℝ → ℝ → ℕ → ℝ

/-- `restr_schemes[scheme]`, opti.py 2190-2207. -/
noncomputable def restrTable (scheme : String) (order : ℕ) : Except PErr Restr :=
  if scheme = "trapz" then .ok fun x xn a an dt _ => trapzAccelRestr order x xn a an dt
  else if scheme = "trapz_mod" then .ok fun x xn a an dt _ => seq2 (trapzModAccelRestr (x 0, x 1) (xn 0, xn 1) a an dt)
  else if scheme = "trapz_n" then .ok fun x xn a an dt _ => trapzMRestr order x xn a an dt
  else if scheme = "hs" ∨ scheme = "hs_parab" then .ok fun x xn a an dt ac => hsAccelRestr order x xn a an dt ac
  else if scheme = "hs_mod" ∨ scheme = "hs_mod_parab" then
    .ok fun x xn a an dt ac => seq2 (hsModAccelRestr (x 0, x 1) (xn 0, xn 1) a an dt ac)
  else if scheme = "hsj" ∨ scheme = "hsj_parab" ∨ scheme = "hsj_parab_mod" then
    .ok fun x xn a an dt ac => seq2 (hsjAccelRestr (x 0, x 1) (xn 0, xn 1) a an dt ac)
  else if scheme = "hsn" ∨ scheme = "hsn_parab" then .ok fun x xn a an dt ac => hsMRestr order x xn a an dt ac
  else .error .key

/-- Does the name contain `s`? -/
def contains (scheme s : String) : Bool := decide (s.toList <:+: scheme.toList)

/-- `half_x`, opti.py 2179-2187. -/
noncomputable def halfX (scheme : String) (order : ℕ) (x xn : ℕ → ℝ) (a an dt : ℝ) : ℕ → ℝ :=
  if contains scheme "j" then seq2 (hsjHalfX (x 0, x 1) (xn 0, xn 1) a an dt)
  else if contains scheme "hsn" then hsMHalfX order x xn a an dt
  else if contains scheme "mod" then seq2 (hsModHalfX (x 0, x 1) (xn 0, xn 1) a an dt)
  else hsHalfX order x xn a an dt

/-- The control at the centre, opti.py 2267-2281. -/
noncomputable def centreU (scheme : String) (u un : ℝ) : ℝ :=
  if contains scheme "j" then 0.6 * u + 0.4 * un else (u + un) / 2

/-- `_Equispaced.apply_scheme`, opti.py 2120-2283: the constraints on the variables `v` and on those of the centres `c`. -/
noncomputable def equiConstraints (F : Dyn) (scheme : String) (N order n_q n_u : ℕ) (t_start t_end : ℝ) :
    Except PErr (Vars → Vars → Prop) := do
  let f_restr ← restrTable scheme order
  let T := t_end - t_start
  return fun v c =>
    let lev := fun (i j p : ℕ) => v.lev order n_q p i j
    (∀ ii < N, ∀ j < n_q, ∀ p < order,
      f_restr (lev ii j) (lev (ii + 1) j) (lev ii j order) (lev (ii + 1) j order) (T / N) (c.lev order n_q order ii j) p = 0) ∧
    (∀ ii < N + 1, zero (F (v.x ii) (v.xd ii) (v.u ii) (v.lam ii))) ∧
    (contains scheme "hs" = true →
      (∀ ii < N, (∀ j < n_q, ∀ p < order, c.lev order n_q p ii j
          = halfX scheme order (lev ii j) (lev (ii + 1) j) (lev ii j order) (lev (ii + 1) j order) (T / N) p) ∧
        zero (F (c.x ii) (c.xd ii) (c.u ii) (c.lam ii))) ∧
      (contains scheme "parab" = false → ∀ ii < N, ∀ m < n_u, c.u ii m = centreU scheme (v.u ii m) (v.u (ii + 1) m)))

end Chords.Equi
