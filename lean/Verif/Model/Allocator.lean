import Verif.Model.Basic
/-!
# `MallocAllocator` (include/eni/support/MallocAllocator.h, include/eni/adt/StringHashTable.h 57-104)

The memory consists of blocks of bytes; an object begins at some byte of a block. Whether `malloc` grants a request is up to the environment. Simplified:
addresses are never used again; alignment is not modelled (`malloc` aligns for every type).
-/
namespace Eni
namespace Alloc

/-- Parameters of `DataType`: its size and `DataType()`. -/
structure Cfg (α : Type) where
  sz : Nat
  dflt : α
  sz_pos : 0 < sz

/-- Memory: the sizes of the live blocks in bytes, and the objects: `obj b o` begins at byte `o` of block `b`. -/
structure Mem (α : Type) where
  next : Nat
  size : Nat → Option Nat
  obj : Nat → Nat → Option α

/-- Nothing is allocated. -/
def Mem.init {α : Type} : Mem α := ⟨0, fun _ => none, fun _ _ => none⟩

/-- A pointer to the beginning of a block, or the null pointer. -/
abbrev Ptr := Option Nat

variable {α : Type}

/-- `std::malloc` -/
def malloc (grant : Bool) (m : Mem α) (bytes : Nat) : Mem α × Ptr :=
  if grant then (⟨m.next + 1, fun b => if b = m.next then some bytes else m.size b, m.obj⟩, some m.next) else (m, none)

/-- `std::free`; objects in the block cease to exist without being destroyed. -/
def free (m : Mem α) : Ptr → Res (Mem α)
  | none => .ok m
  | some b =>
    match m.size b with
    | none => .ub .doubleFree
    | some _ => .ok ⟨m.next, fun c => if c = b then none else m.size c, fun c o => if c = b then none else m.obj c o⟩

/-- `allocate(pNumOfElements)` (MallocAllocator.h 52-54): the product is computed in 64 bits. -/
def allocate (cfg : Cfg α) (grant : Bool) (m : Mem α) (n : Nat) : Mem α × Ptr := malloc grant m (w64 (n * cfg.sz))

/-- `deallocate` (MallocAllocator.h 56-57). -/
def deallocate (m : Mem α) (p : Ptr) : Res (Mem α) := free m p

/-- `max_size` (MallocAllocator.h 59-60). -/
def maxSize (cfg : Cfg α) : Nat := 18446744073709551615 / cfg.sz

/-- The byte range of `pObject[i]` has to lie in a live block. -/
def place (cfg : Cfg α) (m : Mem α) (p : Ptr) (i : Nat) : Res Nat :=
  match p with
  | none => .ub .nullDeref
  | some b =>
    match m.size b with
    | none => .ub .useAfterFree
    | some bytes => if i * cfg.sz + cfg.sz ≤ bytes then .ok b else .ub .outOfBounds

/-- `construct(pObject + i, pValue)` (MallocAllocator.h 65-66). -/
def construct (cfg : Cfg α) (m : Mem α) (p : Ptr) (i : Nat) (a : α) : Res (Mem α) := do
  let b ← place cfg m p i
  .ok { m with obj := fun c o => if c = b ∧ o = i * cfg.sz then some a else m.obj c o }

/-- `construct(pObject + i)` (MallocAllocator.h 62-63). -/
def construct0 (cfg : Cfg α) (m : Mem α) (p : Ptr) (i : Nat) : Res (Mem α) := construct cfg m p i cfg.dflt

/-- Reading `pObject[i]`. -/
def get (cfg : Cfg α) (m : Mem α) (p : Ptr) (i : Nat) : Res α := do
  let b ← place cfg m p i
  match m.obj b (i * cfg.sz) with
  | some a => .ok a
  | none => .ub .uninit

/-- `destroy(pObject + i)` (MallocAllocator.h 68-69). -/
def destroy (cfg : Cfg α) (m : Mem α) (p : Ptr) (i : Nat) : Res (Mem α) := do
  let b ← place cfg m p i
  match m.obj b (i * cfg.sz) with
  | some _ => .ok { m with obj := fun c o => if c = b ∧ o = i * cfg.sz then none else m.obj c o }
  | none => .ub .uninit

/-- A call of the allocator, or an access to what it returned. Variable `x` is the result of the `x`-th call of `allocate`. -/
inductive AOp (α : Type) where
  | allocate (n : Nat) (grant : Bool)
  | construct (x i : Nat) (a : α)
  | construct0 (x i : Nat)
  | get (x i : Nat)
  | destroy (x i : Nat)
  | deallocate (x : Nat)
  deriving DecidableEq, Repr

/-- What the program sees. -/
inductive ARep (α : Type) where
  | done
  | null (b : Bool)      -- whether the result is the null pointer
  | val (a : α)
  deriving DecidableEq, Repr

/-- The memory and the variables. -/
structure St (α : Type) where
  mem : Mem α
  vars : List Ptr

/-- The value of a variable; one that does not exist is a mistake of the program. -/
def St.ptr (s : St α) (x : Nat) : Res Ptr :=
  match s.vars[x]? with
  | some p => .ok p
  | none => .ub .uninit

/-- One step of a program. -/
def step (cfg : Cfg α) (s : St α) : AOp α → Res (St α × ARep α)
  | .allocate n grant =>
    let (m, p) := allocate cfg grant s.mem n
    .ok (⟨m, s.vars ++ [p]⟩, .null p.isNone)
  | .construct x i a => do
    let p ← s.ptr x
    let m ← construct cfg s.mem p i a
    .ok ({ s with mem := m }, .done)
  | .construct0 x i => do
    let p ← s.ptr x
    let m ← construct0 cfg s.mem p i
    .ok ({ s with mem := m }, .done)
  | .get x i => do
    let p ← s.ptr x
    let a ← get cfg s.mem p i
    .ok (s, .val a)
  | .destroy x i => do
    let p ← s.ptr x
    let m ← destroy cfg s.mem p i
    .ok ({ s with mem := m }, .done)
  | .deallocate x => do
    let p ← s.ptr x
    let m ← deallocate s.mem p
    .ok ({ s with mem := m }, .done)

/-- A program. -/
def run (cfg : Cfg α) (s : St α) : List (AOp α) → Res (St α × List (ARep α))
  | [] => .ok (s, [])
  | op :: ops => do
    let (s, r) ← step cfg s op
    let (s, rs) ← run cfg s ops
    .ok (s, r :: rs)

/-- `MallocAllocator<void>::allocate` (MallocAllocator.h 109-110): the number of bytes requested. -/
def voidBytes (n : Nat) : Nat := n

/-- `MallocAllocator<void>::max_size` (MallocAllocator.h 103-104), `sizeof(void*)` is 8. -/
def voidMaxSize : Nat := 18446744073709551615 / 8

/-- `MallocAllocator<Entry<std::string, ValueType>>::allocate(pNumOfElements, pKey)` (StringHashTable.h 91-94): the number of bytes requested for entries of size
`sz` and a key of length `len`. The number of elements is not used. -/
def entryBytes (sz _n len : Nat) : Nat := w64 (sz + len + 1)

end Alloc
end Eni
