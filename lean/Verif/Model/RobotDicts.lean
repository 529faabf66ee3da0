import Verif.Model.Robots

/-! # Values given to the models of serial robots
chords/robots.py 48-55 (`make_search_func`), 58-92, 95-155 (`robot_to_sympy` with its `replacedict_list`), 158-188 (`Panda_Simp`).

A dictionary has the keys that the code reads; other keys are ignored by the code. Simplification: values are numbers, and a joint angle given under `q`, which
may be any expression, is its value and its derivative along the motion. -/

namespace Chords.Robots
open Matrix

/-- A `replacedict`. -/
@[ext]
structure Dict where
  theta : Option ℝ := none
  alpha : Option ℝ := none
  d : Option ℝ := none
  a : Option ℝ := none
  m : Option ℝ := none
  I : Option M3 := none
  r : Option V3 := none
  q : Option (ℝ × ℝ) := none

inductive DErr
  | notImplemented | index
  deriving DecidableEq, Repr

/-- `make_search_func`, robots.py 48-55: the value of the dictionary if it has the key, or else the attribute of the link. -/
def search {A : Type} (given : Option A) (own : A) : A :=
  match given with
  | some v => v
  | none => own

/-- The values that `dhlink_rot_mod_to_symbody` reads, robots.py 71-77 and 86. -/
def readLink (l : Link) (rd : Dict) : Link :=
  { l with
    theta := search rd.theta l.theta
    alpha := search rd.alpha l.alpha
    d := search rd.d l.d
    a := search rd.a l.a
    m := search rd.m l.m
    I := search rd.I l.I
    r := search rd.r l.r }

/-- The joint angle and its derivative, robots.py 115-118. -/
def joint (rd : Dict) (q qdot : ℝ) : ℝ × ℝ :=
  match rd.q with
  | some p => p
  | none => (q, qdot)

/-- The loop over links, robots.py 113-136, from link `i`. -/
noncomputable def loopD (dicts : List Dict) (q qdot : ℕ → ℝ) : ℕ → List Link → Chain → Except DErr Chain
  | _, [], s => .ok s
  | i, l :: ls, s =>
    match dicts[i]? with
    | none => .error .index
    | some rd =>
      let qi := joint rd (q i) (qdot i)
      if l.mdh then
        if l.revolute then
          let ref := s.frames.getLastD (1, 0)
          let (b, P) := dhlink (readLink l rd) ref.1 ref.2 (s.points.getLastD 0) qi.1 qi.2
          loopD dicts q qdot (i + 1) ls ⟨s.points ++ [P], s.frames ++ [(b.frame, b.omega)], s.bodies ++ [b]⟩
        else .error .notImplemented
      else .error .notImplemented

/-- `robot_to_sympy`, robots.py 95-155, with its dictionaries: the bodies, and the torques. -/
noncomputable def robotToSympyD (endEffector : Bool) (links : List Link) (dicts : List Dict) (q qdot u : ℕ → ℝ) :
    Except DErr (Chain × List (ℕ × V3)) :=
  if endEffector then .error .notImplemented
  else (loopD dicts q qdot 0 links ⟨[0], [(1, 0)], []⟩).map fun s => (s, forceList s.bodies u)

/-- `alpha_arr`, robots.py 164. -/
noncomputable def alphaArr : List ℝ :=
  let hpi := Real.pi / 2
  [0, -hpi, hpi, hpi, -hpi, hpi, hpi]

/-- `r_arr`, robots.py 173-183. -/
noncomputable def rArr : List V3 :=
  [![3.875e-03, 2.081e-03, 0],
   ![-3.141e-03, -2.872e-02, 3.495e-03],
   ![2.7518e-02, 3.9252e-02, -6.6502e-02],
   ![-5.317e-02, 1.04419e-01, 2.7454e-02],
   ![-1.1953e-02, 4.1065e-02, -3.8437e-02],
   ![6.0149e-02, -1.4117e-02, -1.0517e-02],
   ![1.0517e-02, -4.252e-03, -4.5403e-02]]

/-- The loop of robots.py 165-166, from item `i`. The list has references to dictionaries, which may be the same object; `heap` has their contents. The heap after
the loop is also given when it raises. -/
noncomputable def setAlphas : ℕ → List ℕ → (ℕ → Dict) → Except DErr Unit × (ℕ → Dict)
  | _, [], heap => (.ok (), heap)
  | i, ref :: refs, heap =>
    match alphaArr[i]? with
    | none => (.error .index, heap)
    | some x => setAlphas (i + 1) refs (Function.update heap ref { heap ref with alpha := some x })

/-- The loop of robots.py 185-186, from link `i`. -/
noncomputable def setCenters : ℕ → List Link → Except DErr (List Link)
  | _, [] => .ok []
  | i, l :: ls =>
    match rArr[i]? with
    | none => .error .index
    | some r => (setCenters (i + 1) ls).map fun ls => { l with r := r } :: ls

/-- `Panda_Simp`, robots.py 158-188. `panda` are the links that Robotics Toolbox gives, `refs` is `replacedict_list`; without it, there are seven new
dictionaries. The second component is the heap after the call. -/
noncomputable def pandaSimp (panda : List Link) (endEffector : Bool) (refs : Option (List ℕ)) (heap : ℕ → Dict) (q qdot u : ℕ → ℝ) :
    Except DErr (Chain × List (ℕ × V3)) × (ℕ → Dict) :=
  match refs with
  | none =>
    let s := setAlphas 0 (List.range 7) fun _ => {}
    (s.1.bind fun _ => (setCenters 0 panda).bind fun links => robotToSympyD endEffector links ((List.range 7).map s.2) q qdot u, heap)
  | some refs =>
    let s := setAlphas 0 refs heap
    (s.1.bind fun _ => (setCenters 0 panda).bind fun links => robotToSympyD endEffector links (refs.map s.2) q qdot u, s.2)

end Chords.Robots
