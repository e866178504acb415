/-
Common vocabulary of the model: outcomes of a C++ computation.

Modelling convention (whole development): a C++ function that may throw or run into undefined
behaviour is a Lean function into `Res`.  `ub` covers out-of-bounds accesses, signed overflow,
out-of-range shifts, undefined float conversions, use of dangling pointers.
-/
namespace Dynd

/-- Kinds of C++ exceptions raised by the modelled code (message texts are not modelled).
    Cf. /repo/include/dynd/exceptions.hpp:1-236.  `unmodelled` is not a C++ exception: it marks the points where an
    execution leaves the modelled part of the code. -/
inductive Exc where
  | indexOutOfBounds | irangeOutOfBounds | tooManyIndices
  | overflow | runtime | typeError | parse | decode | encode | broadcast | invalidArg | notDag
  | bufferFull | badAlloc | zeroDiv | invalidCodePoint | outOfRange | unmodelled
  deriving DecidableEq, Repr

/-- Outcome of a modelled C++ computation: a value, a thrown exception, or undefined behaviour. -/
inductive Res (α : Type) where
  | ok (a : α)
  | throw (e : Exc)
  | ub
  deriving DecidableEq, Repr

namespace Res

/-- Sequencing: exceptions and undefined behaviour abort the rest. -/
def bind {α β : Type} (x : Res α) (f : α → Res β) : Res β :=
  match x with
  | .ok a => f a
  | .throw e => .throw e
  | .ub => .ub

instance : Monad Res where
  pure := Res.ok
  bind := Res.bind

@[simp] theorem bind_ok {α β : Type} (a : α) (f : α → Res β) : (Res.ok a >>= f) = f a := rfl
@[simp] theorem bind_throw {α β : Type} (e : Exc) (f : α → Res β) :
    ((Res.throw e : Res α) >>= f) = Res.throw e := rfl
@[simp] theorem bind_ub {α β : Type} (f : α → Res β) : ((Res.ub : Res α) >>= f) = Res.ub := rfl
@[simp] theorem pure_eq {α : Type} (a : α) : (pure a : Res α) = Res.ok a := rfl

theorem bind_eq_ok {α β : Type} {x : Res α} {f : α → Res β} {b : β} :
    (x >>= f) = Res.ok b ↔ ∃ a, x = Res.ok a ∧ f a = Res.ok b := by
  cases x <;> simp

@[simp] theorem map_ok {α β : Type} (f : α → β) (a : α) : f <$> (Res.ok a) = Res.ok (f a) := rfl

/-- The computation threw some exception. -/
def Throws {α : Type} (x : Res α) : Prop := ∃ e, x = .throw e

/-- The value, if any. -/
def toOption {α : Type} : Res α → Option α
  | .ok a => some a
  | _ => none

end Res

/-- `intptr_t` / `int64_t` range (64-bit platform). -/
def I64 (x : Int) : Prop := -9223372036854775808 ≤ x ∧ x ≤ 9223372036854775807

instance (x : Int) : Decidable (I64 x) := by unfold I64; infer_instance

/-- `std::numeric_limits<intptr_t>::min()`. -/
abbrev i64Min : Int := -9223372036854775808
/-- `std::numeric_limits<intptr_t>::max()`. -/
abbrev i64Max : Int := 9223372036854775807

/-- Result of a signed 64-bit arithmetic operation whose mathematical value is `x`:
    signed overflow is undefined behaviour in C++. -/
def i64 (x : Int) : Res Int := if I64 x then .ok x else .ub

theorem i64_ok {x : Int} (h1 : -9223372036854775808 ≤ x) (h2 : x ≤ 9223372036854775807) : i64 x = .ok x :=
  if_pos ⟨h1, h2⟩

theorem i64_eq_ok {x y : Int} (h : i64 x = .ok y) : y = x ∧ I64 x := by
  unfold i64 at h; split at h
  · simp only [Res.ok.injEq] at h; exact ⟨h.symm, by assumption⟩
  · simp at h

end Dynd
