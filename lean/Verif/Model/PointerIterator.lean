import Verif.Model.Basic
/-!
# `PointerIterator` (include/eni/adt/PointerIterator.h, bits/PointerIterator.tcc)

A pointer is a block together with an element index. The C++ rules for pointer arithmetic hold: a computed pointer must stay between the
first element and one past the last element of the block, differences and order comparisons require the same block; everything else is
undefined behaviour. `Mem` gives the number of elements of every live block.
-/
namespace Eni

/-- Number of elements of each block; `none`: not a live block. -/
abbrev PMem := Nat → Option Nat

/-- An iterator: `m_Ptr` (PointerIterator.h 89, constructors bits/PointerIterator.tcc 8-21). -/
structure PIter where
  blk : Nat
  pos : Nat
  deriving DecidableEq, Repr

namespace PIter

/-- The pointer value at signed element index `p` of block `b`. -/
def mk? (mem : PMem) (b : Nat) (p : Int) : Res PIter :=
  match mem b with
  | none => .ub .useAfterFree
  | some n => if 0 ≤ p ∧ p ≤ n then .ok ⟨b, p.toNat⟩ else .ub .outOfBounds

/-- `operator+(size_type)` (bits/PointerIterator.tcc 90-94). -/
def add (mem : PMem) (it : PIter) (off : Nat) : Res PIter := mk? mem it.blk (it.pos + off)

/-- `operator-(size_type)` (bits/PointerIterator.tcc 103-107). -/
def subN (mem : PMem) (it : PIter) (off : Nat) : Res PIter := mk? mem it.blk (it.pos - off)

/-- `operator+=(size_type)` (bits/PointerIterator.tcc 83-88): the iterator after the call, and the returned reference to it. -/
def addAssign (mem : PMem) (it : PIter) (off : Nat) : Res (PIter × PIter) := do
  let p ← mk? mem it.blk (it.pos + off)
  .ok (p, p)

/-- `operator-=(size_type)` (bits/PointerIterator.tcc 96-101). -/
def subAssign (mem : PMem) (it : PIter) (off : Nat) : Res (PIter × PIter) := do
  let p ← mk? mem it.blk (it.pos - off)
  .ok (p, p)

/-- `operator++()` (bits/PointerIterator.tcc 53-58): iterator after the call and returned value. -/
def preInc (mem : PMem) (it : PIter) : Res (PIter × PIter) := do
  let p ← mk? mem it.blk (it.pos + 1)
  .ok (p, p)

/-- `operator++(int)` (bits/PointerIterator.tcc 60-66). -/
def postInc (mem : PMem) (it : PIter) : Res (PIter × PIter) := do
  let old := it
  let p ← mk? mem it.blk (it.pos + 1)
  .ok (p, old)

/-- `operator--()` (bits/PointerIterator.tcc 68-73). -/
def preDec (mem : PMem) (it : PIter) : Res (PIter × PIter) := do
  let p ← mk? mem it.blk (it.pos - 1)
  .ok (p, p)

/-- `operator--(int)` (bits/PointerIterator.tcc 75-81). -/
def postDec (mem : PMem) (it : PIter) : Res (PIter × PIter) := do
  let old := it
  let p ← mk? mem it.blk (it.pos - 1)
  .ok (p, old)

/-- Pointer difference `a - b`. -/
def ptrDiff (mem : PMem) (a b : PIter) : Res Int :=
  if a.blk = b.blk ∧ (mem a.blk).isSome then .ok ((a.pos : Int) - b.pos) else .ub .outOfBounds

/-- `operator-(iterator)` (bits/PointerIterator.tcc 109-113). -/
def diff (mem : PMem) (a b : PIter) : Res Int := ptrDiff mem a b

/-- `operator<` (bits/PointerIterator.tcc 121-125): by pointer difference. -/
def lt (mem : PMem) (a b : PIter) : Res Bool := do
  let d ← ptrDiff mem b a
  .ok (decide (d > 0))

/-- `operator>` (bits/PointerIterator.tcc 127-131): by pointer comparison (unspecified across blocks, here reported like the difference). -/
def gt (mem : PMem) (a b : PIter) : Res Bool :=
  if a.blk = b.blk ∧ (mem a.blk).isSome then .ok (decide (a.pos > b.pos)) else .ub .outOfBounds

/-- `operator<=` (bits/PointerIterator.tcc 133-137): `!(a > b)`. -/
def le (mem : PMem) (a b : PIter) : Res Bool := do
  let r ← gt mem a b
  .ok (!r)

/-- `operator>=` (bits/PointerIterator.tcc 139-143): `!(a < b)`. -/
def ge (mem : PMem) (a b : PIter) : Res Bool := do
  let r ← lt mem a b
  .ok (!r)

/-- `operator==` (bits/PointerIterator.tcc 145-149). -/
def eq (a b : PIter) : Bool := decide (a = b)

/-- `operator!=` (bits/PointerIterator.tcc 151-155). -/
def ne (a b : PIter) : Bool := !(eq a b)

/-- `operator*` (bits/PointerIterator.tcc 29-51): the element pointed to; one past the end must not be dereferenced. `heap` gives the contents. -/
def deref {α : Type} (heap : Nat → Option (List α)) (it : PIter) : Res α :=
  match heap it.blk with
  | none => .ub .useAfterFree
  | some xs => match xs[it.pos]? with
    | some a => .ok a
    | none => .ub .outOfBounds

/-- `operator[](size_type)` (bits/PointerIterator.tcc 115-119). -/
def index {α : Type} (heap : Nat → Option (List α)) (it : PIter) (off : Nat) : Res α := do
  let p ← add (fun b => (heap b).map List.length) it off
  deref heap p

/-- `operator=` (bits/PointerIterator.tcc 23-27): assigns `m_Ptr` and flows off the end of a value-returning function. -/
def assign (_it _other : PIter) : Res (PIter × PIter) := .ub .noReturn

end PIter
end Eni
