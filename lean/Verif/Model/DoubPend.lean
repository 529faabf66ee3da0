import Verif.Model.NumTools
import Mathlib.Analysis.SpecialFunctions.Trigonometric.Basic

/-! # The double pendulum
chords/numpy.py 312-359 and chords/casadi.py 68-74 (`unpack`), 466-513 (`doub_pend_F`). -/

namespace Chords.DoubPend
open NumTools Real

/-- The parameters that are used. -/
structure Par where
  (m_1 l_1 l_0 m_0 g : ℝ)

/-- `m_1, l_1, l_0, m_0, g, m_1, l_1, l_0, m_0, g = params`: ten values, of which the last five are kept; numpy.py 315 and casadi.py 469. -/
def readParams : List ℝ → Except NErr Par
  | [_, _, _, _, _, m_1, l_1, l_0, m_0, g] => .ok ⟨m_1, l_1, l_0, m_0, g⟩
  | _ => .error .value

/-- The default value of `params`, numpy.py 312 and casadi.py 466. -/
def defaultParams : List ℝ := [1, 1, 1, 1, 1]

/-- The third entry, numpy.py 320-335 and casadi.py 474-489. -/
noncomputable def accel0 (p : Par) (q_0 q_1 v_0 v_1 u_0 u_1 : ℝ) : ℝ :=
  (p.l_0 * (p.l_1 * p.m_1 * (p.g * sin q_1 - p.l_0 * v_0 ^ 2 * sin (q_0 - q_1)) - u_1) * cos (q_0 - q_1)
    + p.l_1 * (-p.l_0 * (p.g * p.m_0 * sin q_0 + p.g * p.m_1 * sin q_0 + p.l_1 * p.m_1 * v_1 ^ 2 * sin (q_0 - q_1)) + u_0))
    / (p.l_0 ^ 2 * p.l_1 * (p.m_0 - p.m_1 * cos (q_0 - q_1) ^ 2 + p.m_1))

/-- The fourth entry, numpy.py 336-357 and casadi.py 490-511. -/
noncomputable def accel1 (p : Par) (q_0 q_1 v_0 v_1 u_0 u_1 : ℝ) : ℝ :=
  (-p.l_0 * (p.m_0 + p.m_1) * (p.l_1 * p.m_1 * (p.g * sin q_1 - p.l_0 * v_0 ^ 2 * sin (q_0 - q_1)) - u_1)
    + p.l_1 * p.m_1 * (p.l_0 * (p.g * p.m_0 * sin q_0 + p.g * p.m_1 * sin q_0 + p.l_1 * p.m_1 * v_1 ^ 2 * sin (q_0 - q_1)) - u_0)
      * cos (q_0 - q_1))
    / (p.l_0 * p.l_1 ^ 2 * p.m_1 * (p.m_0 - p.m_1 * cos (q_0 - q_1) ^ 2 + p.m_1))

/-- A function of the six variables, elementwise. -/
def lift6 (f : ℝ → ℝ → ℝ → ℝ → ℝ → ℝ → ℝ) : NumTools.Expr where
  deps := [0, 1, 2, 3, 4, 5]
  fn e := f (e 0) (e 1) (e 2) (e 3) (e 4) (e 5)
  loc e e' h := by simp only [h 0 (by simp), h 1 (by simp), h 2 (by simp), h 3 (by simp), h 4 (by simp), h 5 (by simp)]

/-- `a, b, c, d = l` -/
def four {A : Type} : List A → Except NErr (A × A × A × A)
  | [a, b, c, d] => .ok (a, b, c, d)
  | _ => .error .value

/-- `a, b = l` -/
def two {A : Type} : List A → Except NErr (A × A)
  | [a, b] => .ok (a, b)
  | _ => .error .value

/-- `doub_pend_F`, numpy.py 312-359. -/
noncomputable def doubPendF (x u : Val) (params : List ℝ) : Except NErr Val := do
  let xs ← unpack x
  let (q_0, q_1, v_0, v_1) ← four xs
  let us ← unpack u
  let (u_0, u_1) ← two us
  let p ← readParams params
  let a_0 ← (lift6 (accel0 p)).eval [q_0, q_1, v_0, v_1, u_0, u_1]
  let a_1 ← (lift6 (accel1 p)).eval [q_0, q_1, v_0, v_1, u_0, u_1]
  congruentConcatenate [v_0, v_1, a_0, a_1]

/-- `doub_pend_F`, casadi.py 466-513, for one state: `unpack` turns columns into rows, so that it makes no difference which they are. -/
noncomputable def doubPendFCas (x u params : List ℝ) : Except NErr (List ℝ) := do
  let (q_0, q_1, v_0, v_1) ← four x
  let (u_0, u_1) ← two u
  let p ← readParams params
  return [v_0, v_1, accel0 p q_0 q_1 v_0 v_1 u_0 u_1, accel1 p q_0 q_1 v_0 v_1 u_0 u_1]

end Chords.DoubPend
