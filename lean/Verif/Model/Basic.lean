/-!
# Outcomes and machine arithmetic

Every modelled C++ function returns a `Res`: a normal return, an exception, process termination,
undefined behaviour, or non-termination. Undefined behaviour is an outcome of its own.
-/
namespace Eni

/-- The exceptions of `include/eni/diagnostic/DiagList.inc` lines 1-20 as thrown by the code
(`LogicError<..>`, `OutOfRange<..>`, `LengthError<..>`, `BadAlloc<..>`), plus the standard
library exceptions the tools can meet (`std::out_of_range`, `std::length_error`, `std::bad_alloc`). -/
inductive Exc where
  | invalidIteratorEmpty
  | invalidDelegateAssigned
  | invalidStringMapKey
  | invalidVectorIndex
  | exceedVectorMaxSize
  | noMemory
  | stdOutOfRange
  | stdLengthError
  deriving DecidableEq, Repr

/-- Kinds of undefined behaviour that the model distinguishes. -/
inductive UB where
  | divZero        -- integer modulo by zero
  | outOfBounds    -- access outside an array
  | nullDeref      -- dereference of a null or sentinel pointer
  | useAfterFree   -- dereference of a released object
  | doubleFree     -- release of an object that is not live
  | badUnion       -- read of an inactive union member / wrong `toX()` accessor
  | uninit         -- read of an indeterminate value
  | noReturn       -- flowing off the end of a value-returning function
  | overflow       -- signed integer overflow
  | wrongFree      -- `delete` of memory from `malloc`
  deriving DecidableEq, Repr

/-- Outcome of a C++ call. -/
inductive Res (α : Type _) where
  | ok (a : α)
  | throw (e : Exc)
  | ub (u : UB)
  | diverge
  | exit (code : Nat)
  deriving DecidableEq, Repr

namespace Res

/-- Sequencing of C++ statements: anything but a normal return ends the computation. -/
def bind {α β} (x : Res α) (f : α → Res β) : Res β :=
  match x with
  | ok a => f a
  | throw e => throw e
  | ub u => ub u
  | diverge => diverge
  | exit c => exit c

instance : Monad Res where
  pure := Res.ok
  bind := Res.bind

@[simp] theorem ok_bind {α β} (a : α) (f : α → Res β) : (Res.ok a >>= f) = f a := rfl
@[simp] theorem throw_bind {α β} (e : Exc) (f : α → Res β) : ((Res.throw e : Res α) >>= f) = Res.throw e := rfl
@[simp] theorem ub_bind {α β} (u : UB) (f : α → Res β) : ((Res.ub u : Res α) >>= f) = Res.ub u := rfl
@[simp] theorem diverge_bind {α β} (f : α → Res β) : ((Res.diverge : Res α) >>= f) = Res.diverge := rfl
@[simp] theorem exit_bind {α β} (c : Nat) (f : α → Res β) : ((Res.exit c : Res α) >>= f) = Res.exit c := rfl
@[simp] theorem pure_eq {α} (a : α) : (pure a : Res α) = Res.ok a := rfl

/-- The call returned normally or with an exception or by exiting: no undefined behaviour, no endless loop. -/
def Defined {α} : Res α → Prop
  | ok _ => True
  | throw _ => True
  | exit _ => True
  | ub _ => False
  | diverge => False

theorem bind_eq_ok {α β} {x : Res α} {f : α → Res β} {b : β} :
    (x >>= f) = Res.ok b ↔ ∃ a, x = Res.ok a ∧ f a = Res.ok b := by
  cases x <;> simp

end Res

/-- Result of an `unsigned int` computation (32 bit, wrapping). -/
def w32 (n : Nat) : Nat := n % 4294967296

/-- `unsigned` subtraction `a - b`, wrapping. -/
def sub32 (a b : Nat) : Nat := (a + 4294967296 - b % 4294967296) % 4294967296

/-- Result of a `size_t` computation (64 bit, wrapping). -/
def w64 (n : Nat) : Nat := n % 18446744073709551616

/-- `size_t` subtraction `a - b`, wrapping. -/
def sub64 (a b : Nat) : Nat := (a + 18446744073709551616 - b % 18446744073709551616) % 18446744073709551616

theorem w32_of_lt {n : Nat} (h : n < 4294967296) : w32 n = n := Nat.mod_eq_of_lt h
theorem w64_of_lt {n : Nat} (h : n < 18446744073709551616) : w64 n = n := Nat.mod_eq_of_lt h
theorem sub32_of_le {a b : Nat} (h : b ≤ a) (ha : a < 4294967296) : sub32 a b = a - b := by
  unfold sub32; rw [Nat.mod_eq_of_lt (by omega : b < _)]; omega
theorem sub64_of_le {a b : Nat} (h : b ≤ a) (ha : a < 18446744073709551616) : sub64 a b = a - b := by
  unfold sub64; rw [Nat.mod_eq_of_lt (by omega : b < _)]; omega

end Eni
