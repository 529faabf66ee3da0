import Verif.Model.ArrayProgs

/-! # Interpolation of any order on arrays
The functions of `generate_tz_interp` and `generate_hs_interp`, chords/piecewise.py 1563-1620, as programs on NumPy arrays with one or two axes. Numbers instead
of arrays are in `Model/Interp.lean`. -/

namespace Chords.ArrayProgs

/-- `arr[:] = v` for arrays of the same sizes. Other sizes, which NumPy may repeat, do not appear when the arguments have the same sizes; here they are an error. -/
noncomputable def assign (m : Mem) (tgt : Ref) (v : Cell) : Except AErr Mem :=
  if v.rows = (m.cells tgt.id).rows ∧ v.cols = tgt.cols then .ok (m.paste tgt v) else .error .value

/-- The loops of the functions, piecewise.py 1578-1584 and 1609-1615. The list `x_list` has `K` arrays: `M + 2` or `M + 3`. In step `k`, `l = k + 1 - deriv` and
`pos = M - l - deriv`, which is `M - 1 - k`; the terms are those with `i` in `range(l + 2)`, or `range(l + 3)`, that is `i < K - (pos + deriv)`, and use
`x_list[i + M - l]`, that is `x_list[i + pos + deriv]`. -/
noncomputable def interpLoop (M K deriv : ℕ) (m : Mem) (x_list out_list : List Ref) (tau : ℝ) : Except AErr Mem :=
  (List.range M).foldlM (fun m k => do
    let pos := M - 1 - k
    let tgt ← nth out_list pos
    let m := m.paste tgt { m.read tgt with val := fun _ _ => 0 }
    (List.range (K - (pos + deriv))).foldlM (fun m i => do
      let xi ← nth x_list (i + (pos + deriv))
      let t ← bop .numpy (· + ·) (m.read tgt) (scale (tau ^ i / (Nat.factorial i : ℝ)) (m.read xi))
      assign m tgt t) m) m

/-- `tz_interp` of `generate_tz_interp(M, deriv)`, piecewise.py 1563-1587. `x_dot_list[-1]` is the last one of `M`. `x_n` is not used. -/
noncomputable def tzInterpArr (M deriv : ℕ) (m : Mem) (x x_dot x_dot_n : Ref) (tau h : ℝ) : Except AErr (Cell × Mem) := do
  let (x_interp, m) := m.alloc (m.read x)
  let (x_list, m) := divisions .numpy m x M
  let (x_dot_list, m) := divisions .numpy m x_dot M
  let (x_dot_n_list, m) := divisions .numpy m x_dot_n M
  let (x_interp_list, m) := divisions .numpy m x_interp M
  let a ← nth x_dot_list (M - 1)
  let a_n ← nth x_dot_n_list (M - 1)
  let t ← bop .numpy (· + ·) (scale (-1) (m.read a)) (m.read a_n)
  let (s, m) := m.alloc (scale (1 / h) t)
  let m ← interpLoop M (M + 2) deriv m (x_list ++ [a, s]) x_interp_list tau
  return (m.read x_interp, m)

/-- `hs_interp` of `generate_hs_interp(M, deriv)`, piecewise.py 1590-1620; `scheme_params` is `x_dot_c`. -/
noncomputable def hsInterpArr (M deriv : ℕ) (m : Mem) (x x_dot x_dot_n : Ref) (tau h : ℝ) (x_dot_c : Ref) : Except AErr (Cell × Mem) := do
  let (x_interp, m) := m.alloc (m.read x)
  let (x_list, m) := divisions .numpy m x M
  let (x_dot_list, m) := divisions .numpy m x_dot M
  let (x_dot_n_list, m) := divisions .numpy m x_dot_n M
  let (x_dot_c_list, m) := divisions .numpy m x_dot_c M
  let (x_interp_list, m) := divisions .numpy m x_interp M
  let a ← nth x_dot_list (M - 1)
  let a_n ← nth x_dot_n_list (M - 1)
  let a_c ← nth x_dot_c_list (M - 1)
  let t ← bop .numpy (· + ·) (scale (-3) (m.read a)) (scale 4 (m.read a_c))
  let t ← bop .numpy (· - ·) t (m.read a_n)
  let (s, m) := m.alloc (scale (1 / h) t)
  let t ← bop .numpy (· - ·) (scale 4 (m.read a)) (scale 8 (m.read a_c))
  let t ← bop .numpy (· + ·) t (scale 4 (m.read a_n))
  let (s2, m) := m.alloc (scale (1 / h ^ 2) t)
  let m ← interpLoop M (M + 3) deriv m (x_list ++ [a, s, s2]) x_interp_list tau
  return (m.read x_interp, m)

end Chords.ArrayProgs
