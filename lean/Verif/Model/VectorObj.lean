import Verif.Model.Vector
/-!
# `eni::Vector` of objects with constructors, destructor and `operator=` (include/eni/adt/bits/Vector.tcc)

Model/Vector is about trivially copyable elements. Here an element is an object that owns something (a `std::string`, a `json::Value`):
whether its `operator=` may be applied depends on what is in the cell it is applied to. The functions are the same as in Model/Vector, cell by
cell, with this question asked for every assignment.

Simplified: memory is granted and byte counts do not exceed 64 bits (refusal and wrapping are treated in Model/Vector); arguments lie outside
of the vector; `std::copy` and `std::copy_backward` within the vector go in the direction in which no element is overwritten before it has been
read, so the elements are read first here.
-/
namespace Eni

/-- What a cell of the block holds: indeterminate bytes (`realloc`), zero bytes (`calloc`), or the value that `operator=` has put there. -/
inductive OCell (α : Type) where
  | raw
  | zero
  | obj (a : α)
  deriving DecidableEq, Repr

/-- What matters of an element type. `zeroVal`: the value denoted by zero bytes, if these are an object at all. `blind`: `operator=` overwrites
the target without looking at it (so it can be applied to anything, and releases nothing; `json::Value`, Value.cpp 169-192: the pointer to the virtual functions is not set, but the only
virtual function is the destructor, which the vector never calls). `reloc`: an object
survives being moved by `realloc`. -/
structure OCls (α : Type) where
  sz : Nat
  dflt : α
  zeroVal : Option α
  blind : Bool
  reloc : Bool
  sz_pos : 0 < sz

/-- Data members (Vector.h 108-110), and two counters that are not part of the code: how many copies of values the vector has made, and how many
of these have been released (by `operator=` of an element over which another value is written; a destructor is called nowhere in Vector.tcc). -/
structure OVec (α : Type) where
  data : Option (List (OCell α))
  size : Nat
  alloc : Nat
  made : Nat
  released : Nat
  deriving DecidableEq, Repr

namespace OVec
variable {α : Type}

/-- `operator=` applied to a cell: undefined unless the cell holds an object or `operator=` does not care. The result is the number of copies
that are released. -/
def over (c : OCls α) : OCell α → Res Nat
  | .raw => if c.blind then .ok 0 else .ub .uninit
  | .zero => if c.blind ∨ c.zeroVal ≠ none then .ok 0 else .ub .uninit
  | .obj _ => .ok (if c.blind then 0 else 1)

/-- Reading an element. -/
def readO (c : OCls α) (data : Option (List (OCell α))) (i : Nat) : Res α :=
  match data with
  | none => .ub .nullDeref
  | some cells =>
    match cells[i]? with
    | none => .ub .outOfBounds
    | some (.obj a) => .ok a
    | some .zero =>
      match c.zeroVal with
      | some a => .ok a
      | none => .ub .uninit
    | some .raw => .ub .uninit

/-- Reading the elements `i .. i + n - 1`. -/
def readN (c : OCls α) (data : Option (List (OCell α))) (i : Nat) : Nat → Res (List α)
  | 0 => .ok []
  | n + 1 => do
    let a ← readO c data i
    let as ← readN c data (i + 1) n
    .ok (a :: as)

/-- Assignments to the cells from `i` on, one after the other (`std::copy`, `std::fill_n`, a single assignment); the result contains the number of
copies released. -/
def put (c : OCls α) (data : Option (List (OCell α))) (i : Nat) : List α → Res (Option (List (OCell α)) × Nat)
  | [] => .ok (data, 0)
  | a :: as =>
    match data with
    | none => .ub .nullDeref
    | some cells =>
      match cells[i]? with
      | none => .ub .outOfBounds
      | some x => do
        let k ← over c x
        let (d, m) ← put c (some (cells.set i (.obj a))) (i + 1) as
        .ok (d, k + m)

/-- `put` with the counters of the vector. -/
def write (c : OCls α) (v : OVec α) (i : Nat) (as : List α) : Res (OVec α) := do
  let (d, k) ← put c v.data i as
  .ok { v with data := d, made := v.made + as.length, released := v.released + k }

/-- `Vector()` (bits/Vector.tcc 8-11). -/
def empty : OVec α := ⟨none, 0, 0, 0, 0⟩

/-- `Vector(size_type)` (bits/Vector.tcc 13-17). -/
def mkN (n : Nat) : OVec α := ⟨some (List.replicate n .zero), n, n, 0, 0⟩

/-- `Vector(size_type, const_reference)`, `Vector(const std_vector&)`, `Vector(const Vector&)`, `Vector(initializer_list)` (bits/Vector.tcc 19-45) for
the values `xs`: `calloc`, then assignments. -/
def ofList (c : OCls α) (xs : List α) : Res (OVec α) := write c (mkN xs.length) 0 xs

/-- `reserve` (bits/Vector.tcc 130-152); `growLoop` is the loop 139-141. `realloc` copies the bytes of the old block; the rest of the new one is
indeterminate. -/
def reserve (c : OCls α) (v : OVec α) (n : Nat) : Res (OVec α) :=
  if n ≤ v.alloc then .ok v
  else do
    let target ← Vec.growLoop n Vec.growFuel v.alloc
    let old := match v.data with
      | none => []
      | some cells => if c.reloc then cells else List.replicate cells.length .raw
    .ok { v with data := some (old.take target ++ List.replicate (target - old.length) .raw), alloc := n }

/-- `resize` (bits/Vector.tcc 103-116). -/
def resize (c : OCls α) (v : OVec α) (n : Nat) (a : α) : Res (OVec α) := do
  let v ← reserve c v n
  let v ← if n > v.size then write c v v.size (List.replicate (n - v.size) a) else .ok v
  .ok { v with size := n }

/-- `push_back` (bits/Vector.tcc 228-233). -/
def pushBack (c : OCls α) (v : OVec α) (a : α) : Res (OVec α) := do
  let v ← reserve c v (v.size + 1)
  let v ← write c v v.size [a]
  .ok { v with size := v.size + 1 }

/-- `emplace_back` (bits/Vector.tcc 241-247): an object made by `new`, which nobody deletes, is copied. -/
def emplaceBack (c : OCls α) (v : OVec α) (a : α) : Res (OVec α) := do
  let v ← pushBack c v a
  .ok { v with made := v.made + 1 }

/-- `pop_back` (bits/Vector.tcc 235-239): a copy is returned, the element stays in its cell. -/
def popBack (c : OCls α) (v : OVec α) : Res (OVec α × α) :=
  if v.size = 0 then .ub .outOfBounds
  else do
    let a ← readO c v.data (v.size - 1)
    .ok ({ v with size := v.size - 1 }, a)

/-- `insert(size_type, ..)` (bits/Vector.tcc 281-318) of the values `xs`. -/
def insert (c : OCls α) (v : OVec α) (i : Nat) (xs : List α) : Res (OVec α × Option Exc) :=
  if i > v.size then .ok (v, some .invalidVectorIndex)
  else do
    let v' ← resize c v (v.size + xs.length) c.dflt
    let tail ← readN c v'.data i (v.size - i)
    let v' ← write c v' (i + xs.length) tail
    let v' ← write c v' i xs
    .ok (v', none)

/-- `erase(size_type, size_type)` (bits/Vector.tcc 342-350). -/
def erase (c : OCls α) (v : OVec α) (first last : Nat) : Res (OVec α × Option Exc) :=
  if first ≥ last ∨ last ≥ v.size then .ok (v, some .invalidVectorIndex)
  else do
    let tail ← readN c v.data last (v.size - last)
    let v ← write c v first tail
    let v ← resize c v (v.size - (last - first)) c.dflt
    .ok (v, none)

/-- `assign` and `operator=` (bits/Vector.tcc 53-65, 208-226) with the values `xs`. -/
def assign (c : OCls α) (v : OVec α) (xs : List α) : Res (OVec α) := do
  let v ← resize c v xs.length c.dflt
  write c v 0 xs

/-- `clear` (bits/Vector.tcc 360-369), also `~Vector` (47-51): the block is released, no destructor is called. -/
def clear (v : OVec α) : OVec α := ⟨none, 0, 0, v.made, v.released⟩

/-- `at` (bits/Vector.tcc 172-188). -/
def at_ (c : OCls α) (v : OVec α) (i : Nat) : Res (VRet α) :=
  if i ≥ v.size then .ok (.exc .invalidVectorIndex)
  else do
    let a ← readO c v.data i
    .ok (.val a)

/-- Calls on one vector. -/
inductive Op (α : Type) where
  | pushBack (a : α)
  | emplaceBack (a : α)
  | popBack
  | insert (i : Nat) (xs : List α)
  | erase (first last : Nat)
  | resize (n : Nat) (a : α)
  | reserve (n : Nat)
  | assign (xs : List α)
  | clear
  | at_ (i : Nat)
  deriving DecidableEq, Repr

/-- Report of a call that may throw. -/
def excRet : Option Exc → VRet α
  | none => .done
  | some e => .exc e

/-- One call; exceptions are caught by the caller and reported. -/
def step (c : OCls α) (v : OVec α) : Op α → Res (OVec α × VRet α)
  | .pushBack a => do .ok (← pushBack c v a, .done)
  | .emplaceBack a => do .ok (← emplaceBack c v a, .done)
  | .popBack => do
    let (v, a) ← popBack c v
    .ok (v, .val a)
  | .insert i xs => do
    let (v, e) ← insert c v i xs
    .ok (v, excRet e)
  | .erase f l => do
    let (v, e) ← erase c v f l
    .ok (v, excRet e)
  | .resize n a => do .ok (← resize c v n a, .done)
  | .reserve n => do .ok (← reserve c v n, .done)
  | .assign xs => do .ok (← assign c v xs, .done)
  | .clear => .ok (clear v, .done)
  | .at_ i => do .ok (v, ← at_ c v i)

/-- A history. -/
def run (c : OCls α) (v : OVec α) : List (Op α) → Res (OVec α × List (VRet α))
  | [] => .ok (v, [])
  | op :: ops => do
    let (v, r) ← step c v op
    let (v, rs) ← run c v ops
    .ok (v, r :: rs)

end OVec
end Eni
