import Mathlib.Data.Rat.Defs
import Mathlib.Algebra.Order.Field.Rat
import Mathlib.Data.List.Dedup

/-! # Labels and colours of schemes in plots
`sch_to_lab`, `sch_to_long_label`, `sch_to_color` and `scheme_kwargs`, chords/util.py 33-247. Strings are lists of characters. -/

namespace Chords.Labels

/-- The only exception of these functions is that of a dictionary without the key. -/
inductive LErr
  | key
  deriving DecidableEq

abbrev Str := List Char

/-- A dictionary: the last entry of each key counts. -/
def lookup {α : Type} (d : List (Str × α)) (k : Str) : Except LErr α :=
  match (d.reverse.find? fun p => p.1 = k) with
  | some p => .ok p.2
  | none => .error .key

/-- `label_dict`, util.py 34-62. -/
def labelDict : List (Str × Str) :=
  [("hs", "HS-1-Topputo"), ("hs_mod", "HS-2-Topputo"), ("hs_parab", "HS-1"), ("hs_mod_parab", "HS-2"), ("trapz", "TZ-1"), ("trapz_mod", "TZ-2"),
   ("hsj", "HSJ-Topputo"), ("hsj_parab", "HSJ"), ("hsj_parab_mod", "HSJ (sep $u_c$)"), ("rk4", "rk4"), ("hsn", "HS-M-Topputo"), ("hsn_parab", "HS-M"),
   ("trapz_n", "TZ-M"), ("LG", "LG"), ("LG2", "LG2"), ("LGL", "LGL"), ("LGR", "LGR"), ("LGR_inv", "LGR_inv"), ("JG", "JG"), ("JGR", "JGR"),
   ("JGR_inv", "JGR_inv"), ("JGL", "JGL"), ("CG", "Cheb"), ("CG_inv", "Cheb_inv"), ("CGL", "Cheb-L"), ("CGR", "Cheb-R"),
   ("CGR_inv", "Cheb-R_inv")].map fun p : String × String => (p.1.toList, p.2.toList)

/-- `titles`, util.py 86-114. -/
def titles : List Str :=
  ["Hermite Simpson", "2nd order Hermite Simpson", "Trapezoidal", "2nd order Trapezoidal", "Hermite Simpson (Topputo)", "2nd order Hermite Simpson (Topputo)",
   "Hermite-Simpson-Jacobi (Topputo)", "Hermite-Simpson-Jacobi", "Hermite-Simpson-Jacobi (mod_u)", "Runge-Kutta 4", "Mth order Hermite Simpson",
   "Mth  order Hermite Simpson (Topputo)", "Mth  order Trapezoidal", "LG", "LG2", "LGL", "LGR", "LGR_inv", "JG", "JGR", "JGR_inv", "JGL", "Chebyshev",
   "Chebyshev_inv", "Chebyshev-Lobato", "Chebyshev-Radau", "Chebyshev-Radau_inv"].map String.toList

/-- `schemes`, util.py 115-143. -/
def schemes : List Str :=
  ["hs_parab", "hs_mod_parab", "trapz", "trapz_mod", "hs", "hs_mod", "hsj", "hsj_parab", "hsj_parab_mod", "rk4", "hsn_parab", "hsn", "trapz_n", "LG", "LG2",
   "LGL", "LGR", "LGR_inv", "JG", "JGR", "JGR_inv", "JGL", "CG", "CG_inv", "CGL", "CGR", "CGR_inv"].map String.toList

/-- `lname_dict`, util.py 144-146. The indices of `titles` are those of `schemes`. -/
def lnameDict : List (Str × Str) := schemes.zip titles

/-- The prefixes of the family: `"BU_"` or `"TD_"` are removed, and what they mean is added to the label. util.py 69-78 and 154-163. -/
def withFamily (dict : List (Str × Str)) (bu td : Str) (sch : Str) : Except LErr Str :=
  if sch.take 3 = "BU_".toList then (lookup dict (sch.drop 3)).map (· ++ bu)
  else if sch.take 3 = "TD_".toList then (lookup dict (sch.drop 3)).map (· ++ td)
  else lookup dict sch

/-- The prefix `"ph_"` of adaptive problems, before the others. util.py 63-82 and 148-167. -/
def withPrefixes (dict : List (Str × Str)) (bu td ph : Str) (sch : Str) : Except LErr Str :=
  if sch.take 3 = "ph_".toList then (withFamily dict bu td (sch.drop 3)).map (ph ++ ·)
  else withFamily dict bu td sch

/-- `sch_to_lab`, util.py 33-82. -/
def schToLab (sch : Str) : Except LErr Str := withPrefixes labelDict " D-A".toList " I-A".toList "adaptive ".toList sch

/-- `sch_to_long_label`, util.py 85-167. -/
def schToLongLabel (sch : Str) : Except LErr Str := withPrefixes lnameDict " integrative".toList " derivative".toList "ph adaptive ".toList sch

/-- Colours of matplotlib: the `n`-th of the cycle, `f"C{n}"`, or that of a map at a number. -/
inductive Color
  | cycle (n : ℕ)
  | cmap (name : String) (x : ℚ)
  deriving DecidableEq

/-- `piece_sch`, util.py 172-180. -/
def pieceSch : List Str := ["hs", "trapz_mod", "trapz", "hs_mod", "hsj", "rk4", "hsj_mod"].map String.toList

/-- `pseud_sch`, util.py 181. -/
def pseudSch : List Str := ["LG", "LGL", "LGR", "JG", "JGR", "JGL", "CG", "CGL", "CGR", "LG2"].map String.toList

/-- `numpy.linspace(a, b, n)[i]`, on rational numbers. -/
def linspaceAt (a b : ℚ) (n i : ℕ) : ℚ := a + i * ((b - a) / (n - 1))

/-- `color_dict`, util.py 171-205, in the order of the assignments. -/
def colorDict : List (Str × Color) :=
  (pieceSch.mapIdx fun i s => (s, .cycle i)) ++
  (pseudSch.mapIdx fun i s => (s, .cycle (i + 4))) ++
  (pseudSch.mapIdx fun i s => ("BU_".toList ++ s, .cmap "cubehelix" (linspaceAt (1 / 5) (9 / 10) pseudSch.length i))) ++
  (pseudSch.mapIdx fun i s => ("TD_".toList ++ s, .cmap "gnuplot2" (linspaceAt (17 / 20) (1 / 5) pseudSch.length i))) ++
  [("BU_LG".toList, .cmap "cubehelix" (9 / 20)), ("TD_LG".toList, .cmap "gist_stern" (3 / 25)),
   ("BU_LGR".toList, .cmap "gnuplot2" (1 / 5)), ("TD_LGR".toList, .cmap "terrain" (3 / 5)),
   ("BU_LGL".toList, .cmap "cubehelix" (7 / 10)), ("TD_LGL".toList, .cmap "cubehelix" (3 / 10))]

/-- The rest of a replacement that still has to jump over `skip` characters. -/
def replaceFrom (old new : Str) : ℕ → Str → Str
  | _, [] => []
  | 0, c :: s => if old.isPrefixOf (c :: s) then new ++ replaceFrom old new (old.length - 1) s else c :: replaceFrom old new 0 s
  | skip + 1, _ :: s => replaceFrom old new skip s

/-- `s.replace(old, new)` with `old` not empty: from the left, without overlaps. -/
def replace (old new s : Str) : Str := replaceFrom old new 0 s

/-- `sch_to_color`, util.py 170-214. -/
def schToColor (sch : Str) : Except LErr Color :=
  let sch := replace "_parab".toList [] sch
  let sch := replace "ph_".toList [] sch
  let sch := replace "_inv".toList [] sch
  let sch := replace "trapz_n".toList "trapz_mod".toList sch
  let sch := replace "hsn".toList "hs_mod".toList sch
  lookup colorDict sch

/-- `t in s` for strings. -/
def contains (t s : Str) : Bool := s.tails.any fun r => t.isPrefixOf r

/-- `str(n)` of an integer. -/
def decimal : ℤ → Str
  | .ofNat m => Nat.toDigits 10 m
  | .negSucc m => '-' :: Nat.toDigits 10 (m + 1)

/-- The options of a line: the marker is always `"o"`. -/
structure Kwargs where
  c : Color
  ls : Str
  label : Str
  deriving DecidableEq

/-- `scheme_kwargs`, util.py 217-247. `order` is an integer; the value of `order == 1` for other objects is not modelled. -/
def schemeKwargs (sch : Str) (longlabel colors_for_parab : Bool) (order : Option ℤ) : Except LErr Kwargs := do
  let color ← schToColor sch
  let ls := if colors_for_parab then "-".toList else if contains "hs".toList sch ∧ ¬contains "parab".toList sch then "--".toList else "-".toList
  let label ← if longlabel then schToLongLabel sch else schToLab sch
  match order with
  | none => return ⟨color, ls, label⟩
  | some n =>
    let ls := if n = 1 then "-".toList else if n = 2 then ":".toList else "--".toList
    return ⟨color, ls, label ++ " order ".toList ++ decimal n⟩

end Chords.Labels
