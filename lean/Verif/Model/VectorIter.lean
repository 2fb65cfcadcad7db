import Verif.Model.Vector
import Verif.Model.PointerIterator
/-!
# `eni::Vector`: functions that take and return iterators, ranges of the vector itself, `emplace_back`
(include/eni/adt/bits/Vector.tcc)

A vector is paired with the identity of the block that `m_Data` points to. The block changes when `reserve` has to ask for more memory
(131-152); iterators into the former block are then invalid.
-/
namespace Eni

/-- A vector and the identity of its block. -/
structure IVec (α : Type) where
  vec : Vec α
  blk : Nat
  deriving DecidableEq, Repr

namespace IVec
variable {α : Type}

/-- Number of cells of the block. -/
def room (v : Vec α) : Nat :=
  match v.data with
  | .buf cs => cs.length
  | _ => 0

/-- The only live block that the functions know of. The null pointer of a vector without memory counts as a block without elements. -/
def mem (v : IVec α) : PMem := fun b => if b = v.blk then some (room v.vec) else none

/-- `begin()` (bits/Vector.tcc 67-77). -/
def begin_ (v : IVec α) : PIter := ⟨v.blk, 0⟩

/-- `end()` (bits/Vector.tcc 79-89). -/
def end_ (v : IVec α) : PIter := ⟨v.blk, v.vec.size⟩

/-- The vector after a call that requested room for `n` elements (`reserve`, bits/Vector.tcc 133). -/
def after (v : IVec α) (n : Nat) (v' : Vec α) : IVec α := ⟨v', if n ≤ v.vec.alloc then v.blk else v.blk + 1⟩

/-- `iterator(m_Data + index)` after the call, or the exception (then the block is the old one). -/
def result (v : IVec α) (n index : Nat) : Vec α × Ret Unit → Res (IVec α × Ret PIter)
  | (v', .val _) => .ok (v.after n v', .val ⟨(v.after n v').blk, index⟩)
  | (v', .exc e) => .ok (⟨v', v.blk⟩, .exc e)

/-- `insert(iterator, size_type, const_reference)` (bits/Vector.tcc 257-263); with `n = 1` also `insert(iterator, const_reference)`
(249-255), because `insert(index, value)` is `insert(index, 1, value)` (281-285). -/
def insertN (cfg : Vec.Cfg α) (grant : Bool) (v : IVec α) (it : PIter) (n : Nat) (arg : VArg α) : Res (IVec α × Ret PIter) := do
  let index ← PIter.diff v.mem it v.begin_
  let r ← Vec.insertN cfg grant v.vec index.toNat n arg
  result v (w64 (v.vec.size + n)) index.toNat r

/-- `insert(iterator, const_iterator, const_iterator)`, `insert(iterator, initializer_list)` (bits/Vector.tcc 265-279) for a range outside of
the vector. -/
def insertRange (cfg : Vec.Cfg α) (grant : Bool) (v : IVec α) (it : PIter) (xs : List (Option α)) : Res (IVec α × Ret PIter) := do
  let index ← PIter.diff v.mem it v.begin_
  let r ← Vec.insertRange cfg grant v.vec index.toNat xs
  result v (w64 (v.vec.size + xs.length)) index.toNat r

/-- `erase(iterator)` (bits/Vector.tcc 320-326). -/
def erase1 (cfg : Vec.Cfg α) (v : IVec α) (it : PIter) : Res (IVec α × Ret PIter) := do
  let index ← PIter.diff v.mem it v.begin_
  let r ← Vec.erase1 cfg v.vec index.toNat
  result v 0 index.toNat r

/-- `erase(iterator, iterator)` (bits/Vector.tcc 328-334). -/
def erase (cfg : Vec.Cfg α) (v : IVec α) (first last : PIter) : Res (IVec α × Ret PIter) := do
  let index ← PIter.diff v.mem first v.begin_
  let stop ← PIter.diff v.mem last v.begin_
  let r ← Vec.erase cfg v.vec index.toNat stop.toNat
  result v 0 index.toNat r

end IVec

namespace Vec
variable {α : Type}

/-- `std::copy` from cell `src` on to cell `dst` on, one element after the other (the iterators are objects of class `PointerIterator`, so that
the library does not use `memmove`). -/
def copyFwd (d : VData α) (src dst : Nat) : Nat → Res (VData α)
  | 0 => .ok d
  | n + 1 => do
    let x ← readRange d src (src + 1)
    let d ← store d dst x
    copyFwd d (src + 1) (dst + 1) n

/-- `insert(size_type, const_iterator, const_iterator)` (bits/Vector.tcc 300-312) for the range `[a, b)` of the vector itself, `a ≤ b`. The
range is read after the vector has been resized and the elements have been shifted. -/
def insertOwn (cfg : Cfg α) (grant : Bool) (v : Vec α) (i a b : Nat) : Res (Vec α × Ret Unit) :=
  let n := b - a
  if i > v.size then throw v .invalidVectorIndex
  else andThen (resize cfg grant v (w64 (v.size + n))) fun v moved =>
    if n > v.size then .ub .outOfBounds
    else do
      let tail ← readRange v.data i (v.size - n)
      let d ← store v.data (i + n) tail
      if n = 0 then ret { v with data := d } ()
      else if moved then .ub .useAfterFree
      else do
        let d ← copyFwd d a i n
        ret { v with data := d } ()

/-- `assign(const_iterator, const_iterator)` (bits/Vector.tcc 215-220) for the range `[a, b)` of the vector itself, `a ≤ b`. -/
def assignOwn (cfg : Cfg α) (grant : Bool) (v : Vec α) (a b : Nat) : Res (Vec α × Ret Unit) :=
  andThen (resize cfg grant v (b - a)) fun v moved =>
    if a = b then ret v ()
    else if moved then .ub .useAfterFree
    else do
      let d ← copyFwd v.data a 0 (b - a)
      ret { v with data := d } ()

/-- `emplace_back` (bits/Vector.tcc 241-247): the element is copied from an object made by `new`, which nobody deletes. The second component
counts such objects. If `reserve` throws nothing has been made. -/
def emplaceBack (cfg : Cfg α) (grant : Bool) (s : Vec α × Nat) (a : α) : Res ((Vec α × Nat) × Ret Unit) := do
  let (v, r) ← reserve cfg grant s.1 (w64 (s.1.size + 1))
  match r with
  | .exc e => .ok ((v, s.2), .exc e)
  | .val _ =>
    let d ← store v.data v.size [some a]
    .ok (({ v with data := d, size := w64 (v.size + 1) }, s.2 + 1), .val ())

end Vec
end Eni
