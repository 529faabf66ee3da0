import Mathlib.LinearAlgebra.CrossProduct
import Mathlib.LinearAlgebra.Matrix.Notation
import Mathlib.Analysis.SpecialFunctions.Trigonometric.Basic
import Mathlib.Analysis.Calculus.Deriv.Basic

/-! # Mechanical models of serial robots
chords/robots.py 33-155.

Vectors are their components in the inertial frame, and a frame is the matrix of its axes there. `orientnew(_, "Axis", [angle, axis])` turns
a frame about one of its axes and adds the derivative of the angle along it to its angular velocity. Lengths and angles of the links are
numbers, and the joint angles are the coordinates, not expressions given in `replacedict`. The values of a link are those that `search` gives, symbolic or not. The
Lagrangian that SymPy makes from the bodies is not modelled; the generalized forces of SymPy's `LagrangesMethod`, from the partial
velocities, are. -/

namespace Chords.Robots
open Matrix

abbrev V3 := Fin 3 → ℝ
abbrev M3 := Matrix (Fin 3) (Fin 3) ℝ

inductive RErr
  | notImplemented
  deriving DecidableEq, Repr

/-- What is read of a link. -/
structure Link where
  theta : ℝ
  alpha : ℝ
  d : ℝ
  a : ℝ
  m : ℝ
  I : M3
  r : V3
  mdh : Bool
  revolute : Bool

/-- `matrix_to_6_vect`, robots.py 33-41. -/
def matrixTo6Vect (M : M3) : Fin 6 → ℝ := ![M 0 0, M 1 1, M 2 2, M 0 1, M 1 2, M 0 2]

/-- SymPy's `inertia(frame, ixx, iyy, izz, ixy, iyz, izx)`, as a matrix in the frame. -/
def inertia (v : Fin 6 → ℝ) : M3 := !![v 0, v 3, v 5; v 3, v 1, v 4; v 5, v 4, v 2]

/-- Turn about the first axis. -/
noncomputable def rotX (x : ℝ) : M3 := !![1, 0, 0; 0, Real.cos x, -Real.sin x; 0, Real.sin x, Real.cos x]

/-- Turn about the third axis. -/
noncomputable def rotZ (x : ℝ) : M3 := !![Real.cos x, -Real.sin x, 0; Real.sin x, Real.cos x, 0; 0, 0, 1]

/-- `frame.x` and `frame.z`. -/
def axisX (F : M3) : V3 := fun i => F i 0
def axisZ (F : M3) : V3 := fun i => F i 2

/-- `arr_to_vect`, robots.py 44-45. -/
def arrToVect (v : V3) (F : M3) : V3 := fun i => v 0 * F i 0 + v 1 * F i 1 + v 2 * F i 2

structure Body where
  frame : M3
  /-- Angular velocity of the frame. -/
  omega : V3
  cm : V3
  mass : ℝ
  /-- In the axes of the frame. -/
  inertia : M3
  potential : ℝ

/-- `dhlink_rot_mod_to_symbody`, robots.py 58-92, with `g = 9.8`: the body and the point. -/
noncomputable def dhlink (l : Link) (refFrame : M3) (refOmega refPoint : V3) (q qdot : ℝ) : Body × V3 :=
  let inert := matrixTo6Vect l.I
  let Nint := refFrame * rotX l.alpha
  let N1 := Nint * rotZ l.theta
  let Nbody := N1 * rotZ q
  let P1 := refPoint + (l.d • axisZ N1 + l.a • axisX refFrame)
  let CM0 := P1 + arrToVect l.r Nbody
  (⟨Nbody, refOmega + qdot • axisZ N1, CM0, l.m, inertia inert, l.m * (98 / 10) * CM0 2⟩, P1)

/-- The lists `points`, `frames` and `bodies`, robots.py 105-107, with the angular velocities of the frames. -/
structure Chain where
  points : List V3
  frames : List (M3 × V3)
  bodies : List Body

/-- The loop over links, robots.py 113-136, from link `i`. -/
noncomputable def loop (q qdot : ℕ → ℝ) : ℕ → List Link → Chain → Except RErr Chain
  | _, [], s => .ok s
  | i, l :: ls, s =>
    if l.mdh then
      if l.revolute then
        let ref := s.frames.getLastD (1, 0)
        let (b, P) := dhlink l ref.1 ref.2 (s.points.getLastD 0) (q i) (qdot i)
        loop q qdot (i + 1) ls ⟨s.points ++ [P], s.frames ++ [(b.frame, b.omega)], s.bodies ++ [b]⟩
      else .error .notImplemented
    else .error .notImplemented

/-- The axis of body `i`. -/
def bodyZ (bodies : List Body) (i : ℕ) : V3 := (bodies[i]?.map fun b => axisZ b.frame).getD 0

/-- `FL`, robots.py 143-149: body and torque. -/
def forceList (bodies : List Body) (u : ℕ → ℝ) : List (ℕ × V3) :=
  (List.range bodies.length).map (fun i => (i, u i • bodyZ bodies i)) ++
    (List.range (bodies.length - 1)).map fun i => (i, -u (i + 1) • bodyZ bodies (i + 1))

/-- `robot_to_sympy`, robots.py 95-155: the bodies, and the torques. -/
noncomputable def robotToSympy (endEffector : Bool) (links : List Link) (q qdot u : ℕ → ℝ) :
    Except RErr (Chain × List (ℕ × V3)) :=
  if endEffector then .error .notImplemented
  else (loop q qdot 0 links ⟨[0], [(1, 0)], []⟩).map fun s => (s, forceList s.bodies u)

/-- The generalized force of coordinate `j` in SymPy's `LagrangesMethod`: torques times partial angular velocities, at `qdot`. -/
noncomputable def genForce (links : List Link) (q qdot u : ℕ → ℝ) (j : ℕ) : Except RErr ℝ :=
  (robotToSympy false links q qdot u).map fun r => (r.2.map fun p =>
    (fun c => deriv (fun s => match robotToSympy false links q (Function.update qdot j s) u with
      | .ok r => (r.1.bodies[p.1]?.map fun b => b.omega c).getD 0
      | .error _ => 0) (qdot j)) ⬝ᵥ p.2).sum

end Chords.Robots
