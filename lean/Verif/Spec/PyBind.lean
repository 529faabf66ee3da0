/-!
# How Python binds call arguments to parameters (the part of the language the cache relies on)

This is a specification of Python's own `inspect.signature(func).bind`, independent of the package.
-/

namespace Chords.Spec

/-- Parameter kinds of a Python signature. -/
inductive Kind
  | posOnly | pos | varPos | kwOnly | varKw
  deriving DecidableEq, Repr

/-- One parameter: name, kind and default value. -/
structure Param (V : Type) where
  name : String
  kind : Kind
  default : Option V

/-- What a parameter name is bound to inside the function. -/
inductive Bound (V : Type)
  | one (v : V)
  | many (vs : List V)
  | dict (kvs : List (String × V))

/-- Remove a key from keyword arguments. -/
def eraseKw {V : Type} (n : String) (kws : List (String × V)) : List (String × V) :=
  kws.filter (fun kv => kv.1 != n)

/-- Value of a keyword argument. -/
def findKw {V : Type} (n : String) : List (String × V) → Option V
  | [] => none
  | (k, v) :: rest => if k = n then some v else findKw n rest

/-- Keyword or default value of a parameter that received no positional argument. -/
def kwOrDefault {V : Type} (p : Param V) (kws : List (String × V)) : Option V :=
  match findKw p.name kws with
  | some v => some v
  | none => p.default

/-- `inspect.signature(func).bind(*args, **kwargs)` followed by the defaults: `none` is `TypeError`,
otherwise the list of parameters with the objects they are bound to, in signature order. -/
def pyBind {V : Type} : List (Param V) → List V → List (String × V) →
    Option (List (String × Bound V))
  | [], args, kws => if args.isEmpty ∧ kws.isEmpty then some [] else none
  | p :: ps, args, kws =>
    match p.kind, args with
    | .posOnly, a :: as => (pyBind ps as kws).map ((p.name, .one a) :: ·)
    | .posOnly, [] =>
      match p.default with
      | some d => (pyBind ps [] kws).map ((p.name, .one d) :: ·)
      | none => none
    | .pos, a :: as =>
      match findKw p.name kws with
      | some _ => none
      | none => (pyBind ps as kws).map ((p.name, .one a) :: ·)
    | .pos, [] =>
      match kwOrDefault p kws with
      | some v => (pyBind ps [] (eraseKw p.name kws)).map ((p.name, .one v) :: ·)
      | none => none
    | .varPos, args => (pyBind ps [] kws).map ((p.name, .many args) :: ·)
    | .kwOnly, _ :: _ => none
    | .kwOnly, [] =>
      match kwOrDefault p kws with
      | some v => (pyBind ps [] (eraseKw p.name kws)).map ((p.name, .one v) :: ·)
      | none => none
    | .varKw, args => (pyBind ps args []).map ((p.name, .dict kws) :: ·)

/-- Signatures without `*args` and `**kwargs`. -/
def Plain {V : Type} (ps : List (Param V)) : Prop :=
  ∀ p ∈ ps, p.kind = .posOnly ∨ p.kind = .pos ∨ p.kind = .kwOnly

end Chords.Spec
