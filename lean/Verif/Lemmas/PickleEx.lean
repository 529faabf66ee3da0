import Verif.Props.Cache
import Mathlib.Logic.Encodable.Basic
import Mathlib.Logic.Equiv.List

/-!
A concrete pickle, to show that the hypotheses of the cache theorems can be met.
-/

namespace Chords.Cache
open Spec

/-- `Num` as a sum of encodable types. -/
def Num.toSum : Num → Option (Int ⊕ Bool)
  | .int n => some (.inl n)
  | .bool b => some (.inr b)
  | .none => Option.none

def Num.ofSum : Option (Int ⊕ Bool) → Num
  | some (.inl n) => .int n
  | some (.inr b) => .bool b
  | Option.none => .none

theorem Num.ofSum_toSum (n : Num) : Num.ofSum n.toSum = n := by cases n <;> rfl

instance : Encodable Num := Encodable.ofLeftInverse Num.toSum Num.ofSum Num.ofSum_toSum

/-- Read a number in unary: ones up to the first zero; `none` if there is no zero. -/
def readUnary : Bytes → Option Nat
  | [] => none
  | b :: bs => if b = 0 then some 0 else (readUnary bs).map (· + 1)

theorem readUnary_enc (n : Nat) (rest : Bytes) :
    readUnary (List.replicate n 1 ++ [0] ++ rest) = some n := by
  induction n with
  | zero => simp [readUnary]
  | succ n ih =>
    rw [List.replicate_succ]
    simp only [List.cons_append, readUnary]
    rw [ih]
    simp

theorem readUnary_prefix (n k : Nat) (h : k < n + 1) :
    readUnary ((List.replicate n (1 : UInt8) ++ [0]).take k) = none := by
  induction n generalizing k with
  | zero =>
    have : k = 0 := by omega
    subst this
    simp [readUnary]
  | succ n ih =>
    cases k with
    | zero => simp [readUnary]
    | succ k =>
      rw [List.replicate_succ]
      simp only [List.cons_append, List.take_succ_cons, readUnary]
      rw [ih k (by omega)]
      simp

/-- A pickle: the code of the dictionary in unary with a stop byte. -/
def exPickle : Pickle Num where
  enc d := some (List.replicate (Encodable.encode d) 1 ++ [0])
  dec b := (readUnary b).bind (fun n => Encodable.decode n)
  dec_enc d b rest h := by
    simp only [Option.some.injEq] at h
    subst h
    rw [readUnary_enc]
    simp
  dec_nil := rfl
  dec_prefix d b k h hk := by
    simp only [Option.some.injEq] at h
    subst h
    rw [readUnary_prefix _ _ (by simpa using hk)]
    rfl

theorem exPickle_enc (d : Dict Num) : (exPickle.enc d).isSome := rfl

/-- `def f(a, b=5): return a + b`, on numbers up to `==`. -/
def exFunc : Func Num where
  name := "f"
  params := exParams
  body env := match env with
    | [(_, .one x), (_, .one y)] => match x.code, y.code with
      | some n, some m => some (.int (n + m))
      | _, _ => none
    | _ => none

theorem exFunc_plain : Plain exFunc.params := by
  intro p hp
  simp [exFunc, exParams] at hp
  rcases hp with rfl | rfl <;> simp

theorem keyEq_cons {a b : Num} {as bs : List Num} (h : keyEq (a :: as) (b :: bs) = true) :
    a.code = b.code ∧ keyEq as bs = true := by
  simp only [keyEq, Bool.and_eq_true] at h
  exact ⟨by simpa [PyVal.eq] using h.1, h.2⟩

theorem exFamily : Family (fun f => f = exFunc) where
  plain := by rintro f rfl; exact exFunc_plain
  nodup := by rintro f rfl; decide
  resp := by
    rintro f rfl vs ws h
    match vs, ws, h with
    | [], [], _ => rfl
    | [a], [b], h => rfl
    | [a, b], [c, d], h =>
      obtain ⟨h1, h2⟩ := keyEq_cons h
      obtain ⟨h3, -⟩ := keyEq_cons h2
      simp [exFunc, exParams, h1, h3]
    | a :: b :: c :: r, d :: e :: g :: t, h =>
      obtain ⟨h1, h2⟩ := keyEq_cons h
      obtain ⟨h3, -⟩ := keyEq_cons h2
      simp [exFunc, exParams, h1, h3]
    | [], _ :: _, h => simp [keyEq] at h
    | _ :: _, [], h => simp [keyEq] at h
    | [_], _ :: _ :: _, h => simp [keyEq] at h
    | _ :: _ :: _, [_], h => simp [keyEq] at h
    | [_, _], _ :: _ :: _ :: _, h => simp [keyEq] at h
    | _ :: _ :: _ :: _, [_, _], h => simp [keyEq] at h
  inj := by rintro f g rfl rfl _; rfl

/-- Non-vacuity of C37: `f(1)`, restart, `f(True, b=5)`: valid history, and the second call is a hit. -/
example : ValidHist (fun f => f = exFunc)
      [.call exFunc [.int 1] [], .restart, .call exFunc [.bool true] [("b", .int 5)]] ∧
    directHist [.call exFunc [.int 1] [], .restart, .call exFunc [.bool true] [("b", .int 5)]]
      = [.value (.int 6), .value (.int 6)] := by
  refine ⟨?_, rfl⟩
  intro f a k hm
  simp only [List.mem_cons, Event.call.injEq, reduceCtorEq, List.not_mem_nil, or_false, false_or] at hm
  rcases hm with ⟨rfl, rfl, rfl⟩ | ⟨rfl, rfl, rfl⟩
  · exact ⟨rfl, by decide, fun _ _ _ _ _ => rfl⟩
  · exact ⟨rfl, by decide, fun _ _ _ _ _ => rfl⟩

end Chords.Cache
