import Verif.Spec.PyBind

/-!
# Model of `store_results` (chords/numpy.py 238-306)

Python values are an abstract type `V` with Python's `==` as a Boolean relation and a `hashable` test.
Pickle is an abstract partial encoder/decoder.  The file system is the existence of the directory
`func_results` plus a map from function name to the bytes of `<name>_results.pkl`.
-/

namespace Chords.Cache
open Spec

/-- Python objects as far as the cache sees them. -/
class PyVal (V : Type) where
  /-- `==` between values. -/
  eq : V → V → Bool
  /-- `hash(v)` does not raise. -/
  hashable : V → Bool
  /-- `None`. -/
  none : V
  eq_refl : ∀ a, eq a a = true
  eq_symm : ∀ a b, eq a b = true → eq b a = true
  eq_trans : ∀ a b c, eq a b = true → eq b c = true → eq a c = true

abbrev Bytes := List UInt8

section
variable {V : Type} [PyVal V]

/-- `==` between tuples. -/
def keyEq : List V → List V → Bool
  | [], [] => true
  | a :: as, b :: bs => PyVal.eq a b && keyEq as bs
  | _, _ => false

/-- The saved dictionary, as an association list with `==` look-up. -/
abbrev Dict (V : Type) := List (List V × V)

/-- `saved_results[given_tup]` if `given_tup in saved_results.keys()`; numpy.py 291-292. -/
def Dict.find (key : List V) : Dict V → Option V
  | [] => Option.none
  | (k, v) :: rest => if keyEq k key then some v else Dict.find key rest

/-- `get_default_args`, numpy.py 238-244: default value or `None`. -/
def defaultArg (p : Param V) : V := p.default.getD PyVal.none

/-- The dictionary `given_args` as an update list (latest first); `given_args[n]`. -/
def lookupArg (n : String) : List (String × V) → V
  | [] => PyVal.none
  | (k, v) :: rest => if k = n then v else lookupArg n rest

/-- numpy.py 268-277: the tuple of arguments used as dictionary key.  `given_args` starts with the
defaults, is overwritten by position (IndexError = `none` if there are more positional arguments than
parameter names) and then by keyword. -/
def storeKey (ps : List (Param V)) (args : List V) (kws : List (String × V)) : Option (List V) :=
  if args.length ≤ ps.length then
    let names := ps.map (·.name)
    let given := kws.reverse ++ (names.zip args).reverse ++ ps.map (fun p => (p.name, defaultArg p))
    some (names.map (fun n => lookupArg n given))
  else Option.none

/-- A decorated function: `func.__name__`, its signature, and what its body does with the bound
arguments (value or exception).  Deterministic: the body is a function. -/
structure Func (V : Type) where
  name : String
  params : List (Param V)
  body : List (String × Bound V) → Option V

/-- Outcome of a call. -/
inductive Outcome (V : Type)
  | value (v : V)
  | funcRaised
  | typeError
  | indexError
  | unhashable
  | loadError
  | pickleError
  | fileExistsError

/-- What the undecorated function does: `func(*args, **kwargs)`. -/
def direct (f : Func V) (args : List V) (kws : List (String × V)) : Outcome V :=
  match pyBind f.params args kws with
  | Option.none => .typeError
  | some env => match f.body env with
    | some v => .value v
    | Option.none => .funcRaised

/-- Pickle: `dumps` may fail, `load` may fail, and `load` of a complete dump gives the object back and
ignores what follows it. An empty file raises EOFError. -/
structure Pickle (V : Type) where
  enc : Dict V → Option Bytes
  dec : Bytes → Option (Dict V)
  dec_enc : ∀ d b rest, enc d = some b → dec (b ++ rest) = some d
  dec_nil : dec [] = Option.none
  /-- A proper prefix of a dump cannot be loaded (the STOP opcode is the last byte). -/
  dec_prefix : ∀ d b k, enc d = some b → k < b.length → dec (b.take k) = Option.none

/-- File system as seen by the cache. -/
structure FS where
  dir : Bool
  file : String → Option Bytes

def FS.empty : FS := ⟨false, fun _ => Option.none⟩

def FS.set (fs : FS) (n : String) (b : Bytes) : FS :=
  { fs with file := fun m => if m = n then some b else fs.file m }

/-- One call of the decorated function, run alone: numpy.py 264-304.  Returns the new file system, the
outcome and whether the body was executed.  Simplification: when `pickle.dump` raises, the file it had opened is left
empty; in fact it has the bytes written before the failure, a proper prefix of a dump, which no more can be loaded. -/
def call (P : Pickle V) (fs : FS) (f : Func V) (args : List V) (kws : List (String × V)) :
    FS × Outcome V × Bool :=
  match pyBind f.params args kws with
  | Option.none => (fs, .typeError, false)
  | some env =>
    match storeKey f.params args kws with
    | Option.none => (fs, .indexError, false)
    | some key =>
      let fs := { fs with dir := true }
      let run (d : Dict V) : FS × Outcome V × Bool :=
        match f.body env with
        | Option.none => (fs, .funcRaised, true)
        | some r =>
          if key.all PyVal.hashable then
            match P.enc (d ++ [(key, r)]) with
            | Option.none => (fs.set f.name [], .pickleError, true)
            | some b => (fs.set f.name b, .value r, true)
          else (fs, .unhashable, true)
      match fs.file f.name with
      | some bytes =>
        match P.dec bytes with
        | Option.none => (fs, .loadError, false)
        | some d =>
          if key.all PyVal.hashable then
            match d.find key with
            | some v => (fs, .value v, false)
            | Option.none => run d
          else (fs, .unhashable, false)
      | Option.none => run []

/-! ## Small steps: the same call, one file operation at a time -/

/-- A call whose arguments are already bound: function, bound arguments, key. -/
structure Req (V : Type) where
  f : Func V
  env : List (String × Bound V)
  key : List V

/-- Where a process is inside the wrapper. -/
inductive PC (V : Type)
  | idle
  | checkDir (c : Req V)                                  -- before `os.path.exists("func_results")`
  | mkDir (c : Req V)                                     -- before `os.makedirs`
  | checkFile (c : Req V)                                 -- before `os.path.exists(fpath)`
  | load (c : Req V)                                      -- before `pickle.load`
  | compute (c : Req V) (d : Dict V)                      -- before `func(*args)`
  | openW (c : Req V) (d : Dict V) (r : V)                -- before `open(fpath, "wb")`
  | write (c : Req V) (b : Bytes) (k : Nat) (r : V)       -- `k` bytes of `b` written

/-- Is the process between truncating the file and finishing to write it? -/
def PC.inWrite : PC V → Prop
  | .write _ b k _ => k < b.length
  | _ => False

/-- Overwrite `new` at offset `k`. -/
def overwrite (old : Bytes) (k : Nat) (new : Bytes) : Bytes :=
  (old.take k ++ List.replicate (k - old.length) 0) ++ new ++ old.drop (k + new.length)

/-- Global state: file system, program counter of every process, log of finished calls. -/
structure State (P V : Type) where
  fs : FS
  pc : P → PC V
  log : List (Req V × Outcome V)

variable {Pr : Type} [DecidableEq Pr]

def setPC (pc : Pr → PC V) (p : Pr) (c : PC V) : Pr → PC V := fun q => if q = p then c else pc q

/-- What one uninterrupted operation of process `p` may do.  `atomic` says whether the whole dump is
written by a single write operation; `crashOk` tells at which program counters a crash may happen. -/
inductive Step (pk : Pickle V) (calls : Req V → Prop) (atomic : Bool) (crashOk : PC V → Prop) :
    State Pr V → State Pr V → Prop
  | start (s : State Pr V) (p : Pr) (c : Req V) (hc : calls c) (h : s.pc p = .idle) :
      Step pk calls atomic crashOk s { s with pc := setPC s.pc p (.checkDir c) }
  | crash (s : State Pr V) (p : Pr) (h : crashOk (s.pc p)) :
      Step pk calls atomic crashOk s { s with pc := setPC s.pc p .idle }
  | dirThere (s : State Pr V) (p : Pr) (c : Req V) (h : s.pc p = .checkDir c) (hd : s.fs.dir = true) :
      Step pk calls atomic crashOk s { s with pc := setPC s.pc p (.checkFile c) }
  | dirMissing (s : State Pr V) (p : Pr) (c : Req V) (h : s.pc p = .checkDir c)
      (hd : s.fs.dir = false) :
      Step pk calls atomic crashOk s { s with pc := setPC s.pc p (.mkDir c) }
  | mkDir (s : State Pr V) (p : Pr) (c : Req V) (h : s.pc p = .mkDir c) (hd : s.fs.dir = false) :
      Step pk calls atomic crashOk s
        { s with fs := { s.fs with dir := true }, pc := setPC s.pc p (.checkFile c) }
  | mkDirFail (s : State Pr V) (p : Pr) (c : Req V) (h : s.pc p = .mkDir c) (hd : s.fs.dir = true) :
      Step pk calls atomic crashOk s
        { s with pc := setPC s.pc p .idle, log := (c, .fileExistsError) :: s.log }
  | fileThere (s : State Pr V) (p : Pr) (c : Req V) (h : s.pc p = .checkFile c) (b : Bytes)
      (hf : s.fs.file c.f.name = some b) :
      Step pk calls atomic crashOk s { s with pc := setPC s.pc p (.load c) }
  | fileMissing (s : State Pr V) (p : Pr) (c : Req V) (h : s.pc p = .checkFile c)
      (hf : s.fs.file c.f.name = Option.none) :
      Step pk calls atomic crashOk s { s with pc := setPC s.pc p (.compute c []) }
  | loadFail (s : State Pr V) (p : Pr) (c : Req V) (h : s.pc p = .load c) (b : Bytes)
      (hf : s.fs.file c.f.name = some b) (hb : pk.dec b = Option.none) :
      Step pk calls atomic crashOk s
        { s with pc := setPC s.pc p .idle, log := (c, .loadError) :: s.log }
  | loadHit (s : State Pr V) (p : Pr) (c : Req V) (h : s.pc p = .load c) (b : Bytes) (d : Dict V)
      (v : V) (hf : s.fs.file c.f.name = some b) (hb : pk.dec b = some d)
      (hk : d.find c.key = some v) :
      Step pk calls atomic crashOk s
        { s with pc := setPC s.pc p .idle, log := (c, .value v) :: s.log }
  | loadMiss (s : State Pr V) (p : Pr) (c : Req V) (h : s.pc p = .load c) (b : Bytes) (d : Dict V)
      (hf : s.fs.file c.f.name = some b) (hb : pk.dec b = some d)
      (hk : d.find c.key = Option.none) :
      Step pk calls atomic crashOk s { s with pc := setPC s.pc p (.compute c d) }
  | computeOk (s : State Pr V) (p : Pr) (c : Req V) (d : Dict V) (r : V)
      (h : s.pc p = .compute c d) (hr : c.f.body c.env = some r) :
      Step pk calls atomic crashOk s { s with pc := setPC s.pc p (.openW c (d ++ [(c.key, r)]) r) }
  | computeRaise (s : State Pr V) (p : Pr) (c : Req V) (d : Dict V)
      (h : s.pc p = .compute c d) (hr : c.f.body c.env = Option.none) :
      Step pk calls atomic crashOk s
        { s with pc := setPC s.pc p .idle, log := (c, .funcRaised) :: s.log }
  | openW (s : State Pr V) (p : Pr) (c : Req V) (d : Dict V) (r : V) (b : Bytes)
      (h : s.pc p = .openW c d r) (hb : pk.enc d = some b) :
      Step pk calls atomic crashOk s
        { s with fs := s.fs.set c.f.name [], pc := setPC s.pc p (.write c b 0 r) }
  | openFail (s : State Pr V) (p : Pr) (c : Req V) (d : Dict V) (r : V)
      (h : s.pc p = .openW c d r) (hb : pk.enc d = Option.none) :
      Step pk calls atomic crashOk s
        { s with fs := s.fs.set c.f.name [], pc := setPC s.pc p .idle,
                 log := (c, .pickleError) :: s.log }
  | write (s : State Pr V) (p : Pr) (c : Req V) (b : Bytes) (k m : Nat) (r : V) (old : Bytes)
      (h : s.pc p = .write c b k r) (hk : k < m) (hm : m ≤ b.length)
      (ha : atomic = true → m = b.length) (hf : s.fs.file c.f.name = some old) :
      Step pk calls atomic crashOk s
        { s with fs := s.fs.set c.f.name (overwrite old k ((b.drop k).take (m - k))),
                 pc := setPC s.pc p (.write c b m r) }
  | close (s : State Pr V) (p : Pr) (c : Req V) (b : Bytes) (r : V)
      (h : s.pc p = .write c b b.length r) :
      Step pk calls atomic crashOk s
        { s with pc := setPC s.pc p .idle, log := (c, .value r) :: s.log }

/-- Finite executions. -/
inductive Reach (pk : Pickle V) (calls : Req V → Prop) (atomic : Bool) (crashOk : PC V → Prop)
    (s₀ : State Pr V) : State Pr V → Prop
  | refl : Reach pk calls atomic crashOk s₀ s₀
  | step {s t : State Pr V} : Reach pk calls atomic crashOk s₀ s → Step pk calls atomic crashOk s t →
      Reach pk calls atomic crashOk s₀ t

end
end Chords.Cache
