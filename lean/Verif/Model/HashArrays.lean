import Verif.Model.HashTable
/-!
# The bucket arrays of hash tables in memory (include/eni/adt/bits/HashBase.tcc, bits/HashTable.tcc)

Model/HashTable keeps the contents of the bucket array inside the table. Here every table also has its pointer `m_Buckets`, and the blocks
behind these pointers are requested with `calloc` or `malloc` and released with `free`. What the functions do otherwise is taken over from
Model/HashTable.

Simplified: requests are granted (Model/HashAlloc treats refused requests).
-/
namespace Eni

/-- The blocks for bucket arrays. -/
structure Blocks where
  next : Nat
  live : Nat → Bool

namespace Blocks

/-- No block. -/
def init : Blocks := ⟨0, fun _ => false⟩

/-- `calloc` and `malloc` -/
def get (b : Blocks) : Blocks × Nat := (⟨b.next + 1, fun q => if q = b.next then true else b.live q⟩, b.next)

/-- `free`; nothing happens for a null pointer. -/
def free (b : Blocks) : Option Nat → Res Blocks
  | none => .ok b
  | some p => if b.live p then .ok { b with live := fun q => if q = p then false else b.live q } else .ub .doubleFree

/-- Access to a block. -/
def touch (b : Blocks) : Option Nat → Res Unit
  | none => .ub .nullDeref
  | some p => if b.live p then .ok () else .ub .useAfterFree

/-- A loop or `memcpy` over a block for `n` buckets, which looks at nothing if there are none. -/
def lookAt (b : Blocks) (n : Nat) (m : Option Nat) : Res Unit := if n = 0 then .ok () else b.touch m

/-- `if (isInit()) clear();` (bits/HashBase.tcc 93-94) -/
def freeIf (b : Blocks) (isInit : Bool) (m : Option Nat) : Res Blocks := if isInit then b.free m else .ok b

end Blocks

namespace Table
variable {E K : Type}

/-- `doRehash` (bits/HashBase.tcc 249-286): line 251 requests the new array, 281 releases the old one. The loop (256) looks at the old array
unless it has no buckets. -/
def doRehashP (b : Blocks) (m : Option Nat) (t : Table E) (n : Nat) : Res (Blocks × Option Nat × Table E) := do
  let (b, q) := b.get
  let _ ← b.lookAt t.nb m
  let t ← t.doRehash n
  let b ← b.free m
  .ok (b, some q, t)

/-- `mayRehash` (bits/HashBase.tcc 231-246). -/
def mayRehashP (b : Blocks) (m : Option Nat) (t : Table E) : Res (Blocks × Option Nat × Table E) :=
  if w32 (t.ne * 4) > w32 (t.nb * 3) then doRehashP b m t (computeBucketSize t.nb)
  else if w32 (sub32 t.nb (w32 (t.ne + t.nt)) * 8) < t.nb then doRehashP b m t t.nb
  else .ok (b, m, t)

/-- `init` when called by `lookupBucketFor` (bits/HashBase.tcc 127-138, 156-158). -/
def initP (b : Blocks) (m : Option Nat) (t : Table E) : Blocks × Option Nat :=
  if t.init = false then (b.get.1, some b.get.2) else (b, m)

/-- `insertE` (bits/HashTable.tcc 114-142). -/
def insertEP [DecidableEq K] (hash : K → UInt32) (keyOf : E → Option K) (b : Blocks) (m : Option Nat) (t : Table E) (k : K) (mk : E) :
    Res (Blocks × Option Nat × Table E × Nat × Bool) := do
  let (b, m) := initP b m t
  let _ ← b.touch m
  let (t, i) ← lookupBucketFor hash keyOf t k
  match t.buckets[i]? with
  | none => .ub .outOfBounds
  | some bk =>
    match bk.slot with
    | .full _ => .ok (b, m, t, i, true)
    | s =>
      let nt := match s with
        | .tomb => sub32 t.nt 1
        | _ => t.nt
      let (b, m, t') ← mayRehashP b m { t with buckets := t.buckets.set i { bk with slot := .full mk }, nt := nt, ne := w32 (t.ne + 1) }
      .ok (b, m, t', i, false)

/-- `findKey` (bits/HashBase.tcc 199-228) looks at the array only if there is one. -/
def findP (b : Blocks) (m : Option Nat) (t : Table E) : Res Unit := if t.init = false then .ok () else b.touch m

/-- `eraseE` (bits/HashTable.tcc 147-162). -/
def eraseEP [DecidableEq K] (hash : K → UInt32) (keyOf : E → Option K) (b : Blocks) (m : Option Nat) (t : Table E) (k : K) :
    Res (Blocks × Option Nat × Table E × Option E) := do
  let _ ← findP b m t
  match ← findKey hash keyOf t k with
  | none => .ok (b, m, t, none)
  | some i =>
    if i < 2147483648 then
      match t.buckets[i]? with
      | none => .ub .outOfBounds
      | some bk =>
        match bk.slot with
        | .full e =>
          let (b, m, t') ← mayRehashP b m { t with buckets := t.buckets.set i { bk with slot := .tomb }, ne := sub32 t.ne 1, nt := w32 (t.nt + 1) }
          .ok (b, m, t', some e)
        | _ => .ub .nullDeref
    else .ub .outOfBounds

end Table

namespace HashTable
variable {K V : Type} [DecidableEq K]

/-- `insert` (bits/HashTable.tcc 114-142). -/
def insertP (hash : K → UInt32) (dflt : V) (b : Blocks) (m : Option Nat) (h : Heap K V) (t : Table Nat) (k : K) :
    Res (Blocks × Option Nat × Heap K V × Table Nat × Nat × Bool) := do
  let (h', p) := h.alloc k dflt
  let (b, m, t', i, exist) ← Table.insertEP hash h.keyOf b m t k p
  if exist then
    match t'.buckets[i]? with
    | some ⟨_, .full q⟩ => .ok (b, m, h, t', q, true)
    | _ => .ub .nullDeref
  else .ok (b, m, h', t', p, false)

/-- `erase` (bits/HashTable.tcc 147-162). -/
def eraseP (hash : K → UInt32) (b : Blocks) (m : Option Nat) (h : Heap K V) (t : Table Nat) (k : K) :
    Res (Blocks × Option Nat × Heap K V × Table Nat × Bool) := do
  let (b, m, t, r) ← Table.eraseEP hash h.keyOf b m t k
  match r with
  | none => .ok (b, m, h, t, false)
  | some p => do
    let h ← h.free p
    .ok (b, m, h, t, true)

/-- `HashTable::clear` (bits/HashTable.tcc 90-107) with `TableImpl::clear` (bits/HashBase.tcc 142-150). -/
def clearP (b : Blocks) (m : Option Nat) (h : Heap K V) (t : Table Nat) : Res (Blocks × Option Nat × Heap K V × Table Nat) :=
  if t.ne = 0 then .ok (b, m, h, t)
  else do
    let _ ← b.touch m
    let h ← h.freeAll t.entries
    let b ← b.free m
    .ok (b, none, h, Table.null)

/-- `~HashTable` (bits/HashTable.tcc 48-51) and then `~TableImpl` (HashBase.h 84), which calls `TableImpl::clear`. -/
def destroyP (b : Blocks) (m : Option Nat) (h : Heap K V) (t : Table Nat) : Res (Blocks × Heap K V) := do
  let (b, m, h, _) ← clearP b m h t
  let b ← b.free m
  .ok (b, h)

/-- Copy constructor (bits/HashBase.tcc 60-70, bits/HashTable.tcc 18-34); `m` is the array of the source, which `memcpy` looks at unless it
has no buckets. -/
def copyP (b : Blocks) (m : Option Nat) (h : Heap K V) (src : Table Nat) : Res (Blocks × Option Nat × Heap K V × Table Nat) := do
  let (b, q) := b.get
  let _ ← b.lookAt src.nb m
  let (h, t) ← copy h src
  .ok (b, some q, h, t)

/-- Copy assignment from a different table (bits/HashBase.tcc 91-105, bits/HashTable.tcc 57-74): the old array `md` is released, the old
entries are not. -/
def copyAssignP (b : Blocks) (md ms : Option Nat) (h : Heap K V) (dst src : Table Nat) : Res (Blocks × Option Nat × Heap K V × Table Nat) := do
  let b ← b.freeIf dst.init md
  let (b, q) := b.get
  let _ ← b.lookAt src.nb ms
  let (h, t) ← copyAssign h dst src
  .ok (b, some q, h, t)

/-- Copy assignment of a table to itself (bits/HashBase.tcc 91-105): after `clear` there is no array to copy from. -/
def selfAssignP (b : Blocks) (m : Option Nat) (h : Heap K V) (t : Table Nat) : Res (Blocks × Option Nat × Heap K V × Table Nat) := do
  let b ← b.freeIf t.init m
  let (b, q) := b.get
  let _ ← b.lookAt (if t.init then 0 else t.nb) m
  let (h, t) ← selfAssign h t
  .ok (b, some q, h, t)

end HashTable

/-- A program with several tables: `ptr i` is `m_Buckets` of table `i`. -/
structure PWorld (K V : Type) where
  w : World K V
  mem : Blocks
  ptr : Nat → Option Nat

namespace PWorld
variable {K V : Type} [DecidableEq K]
open HashTable

/-- Table `i` and its array after a statement. -/
def put (s : PWorld K V) (i : Nat) (b : Blocks) (m : Option Nat) (h : Heap K V) (t : Option (Table Nat)) : PWorld K V :=
  ⟨{ s.w with heap := h }.setTab i t, b, fun j => if j = i then m else s.ptr j⟩

/-- One statement; see `World.step`. Move construction and move assignment (bits/HashBase.tcc 73-88, 109-123) take over the pointer; the
pointer that the destination of an assignment had is overwritten. -/
def step (hash : K → UInt32) (dflt : V) (s : PWorld K V) : Stmt K V → Res (PWorld K V)
  | .new i n =>
    let t : Table Nat := Table.new n
    if t.init then .ok (s.put i s.mem.get.1 (some s.mem.get.2) s.w.heap (some t))
    else .ok (s.put i s.mem none s.w.heap (some t))
  | .copyNew i j => do
    let t ← s.w.tab j
    let (b, m, h, t') ← copyP s.mem (s.ptr j) s.w.heap t
    .ok (s.put i b m h (some t'))
  | .moveNew i j => do
    let t ← s.w.tab j
    .ok ((s.put j s.mem none s.w.heap (some (move t).2)).put i s.mem (s.ptr j) s.w.heap (some (move t).1))
  | .copyAssign i j => do
    let ti ← s.w.tab i
    let tj ← s.w.tab j
    let (b, m, h, t') ← if i = j then selfAssignP s.mem (s.ptr i) s.w.heap ti else copyAssignP s.mem (s.ptr i) (s.ptr j) s.w.heap ti tj
    .ok (s.put i b m h (some t'))
  | .moveAssign i j => do
    let _ ← s.w.tab i
    let tj ← s.w.tab j
    if i = j then .ok s
    else .ok ((s.put j s.mem none s.w.heap (some (move tj).2)).put i s.mem (s.ptr j) s.w.heap (some (move tj).1))
  | .destroy i => do
    let t ← s.w.tab i
    let (b, h) ← destroyP s.mem (s.ptr i) s.w.heap t
    .ok (s.put i b none h none)
  | .insert i k => do
    let t ← s.w.tab i
    let (b, m, h, t', _, _) ← insertP hash dflt s.mem (s.ptr i) s.w.heap t k
    .ok (s.put i b m h (some t'))
  | .assign i k v => do
    let t ← s.w.tab i
    let (b, m, h, t', p, _) ← insertP hash dflt s.mem (s.ptr i) s.w.heap t k
    let h ← h.setVal p v
    .ok (s.put i b m h (some t'))
  | .erase i k => do
    let t ← s.w.tab i
    let (b, m, h, t', _) ← eraseP hash s.mem (s.ptr i) s.w.heap t k
    .ok (s.put i b m h (some t'))
  | .find i k => do
    let t ← s.w.tab i
    let _ ← Table.findP s.mem (s.ptr i) t
    let _ ← lookup hash s.w.heap t k
    .ok s
  | .clear i => do
    let t ← s.w.tab i
    let (b, m, h, t') ← clearP s.mem (s.ptr i) s.w.heap t
    .ok (s.put i b m h (some t'))
  | .rehash i => do
    let t ← s.w.tab i
    let (b, m, t') ← Table.mayRehashP s.mem (s.ptr i) t
    .ok (s.put i b m s.w.heap (some t'))
  | .rehashN i n => do
    let t ← s.w.tab i
    let (b, m, t') ← Table.doRehashP s.mem (s.ptr i) t (w32 n)
    .ok (s.put i b m s.w.heap (some t'))

/-- A whole program. -/
def run (hash : K → UInt32) (dflt : V) (s : PWorld K V) : List (Stmt K V) → Res (PWorld K V)
  | [] => .ok s
  | st :: ss => do
    let s ← step hash dflt s st
    run hash dflt s ss

/-- Start of the program. -/
def start : PWorld K V := ⟨World.start, Blocks.init, fun _ => none⟩

end PWorld
end Eni
