import Verif.Model.HashTable
/-!
# Hash tables when memory is refused (include/eni/adt/bits/HashBase.tcc, bits/HashTable.tcc)

The functions of Model/HashBase and Model/HashTable with `calloc` and `malloc` that may return null. A table whose array was refused has
`m_Buckets` null (`init = false`, no buckets) but may have `m_NumOfBuckets` different from 0.
-/
namespace Eni

/-- The answers to the requests an operation can make: the first bucket array (`init`), the entry object, the array of a rehash. -/
structure Grant where
  arr : Bool
  entry : Bool
  re : Bool
  deriving DecidableEq, Repr

/-- Memory is never refused. -/
def Grant.all : Grant := ⟨true, true, true⟩

namespace Table
variable {E K : Type} [DecidableEq K]

/-- `init` (bits/HashBase.tcc 127-138): the counters are set before the request, the result of `init` is ignored by its callers (54, 157). -/
def initTableA (g : Bool) (pInitSize : Nat) : Table E :=
  if g then initTable pInitSize
  else ⟨false, [], if pInitSize ≠ 0 then computeBucketSize pInitSize else 16, 0, 0⟩

/-- The constructor (bits/HashBase.tcc 47-57, bits/HashTable.tcc 11-13). -/
def newA (g : Bool) (pSize : Nat) : Table E :=
  if w32 pSize ≠ 0 then initTableA g (w32 pSize) else null

/-- `lookupBucketFor` (bits/HashBase.tcc 154-196): without array `m_Buckets[index]` dereferences a null pointer. -/
def lookupBucketForA (g : Bool) (hash : K → UInt32) (keyOf : E → Option K) (t : Table E) (k : K) : Res (Table E × Nat) :=
  if t.init = false then
    if g then lookupBucketFor hash keyOf t k else .ub .nullDeref
  else lookupBucketFor hash keyOf t k

/-- `doRehash` (bits/HashBase.tcc 249-286). When the new array is refused, the first entry to be moved is stored through a null pointer; if
there is none, the table ends up without array. -/
def doRehashA (g : Bool) (t : Table E) (pNewSize : Nat) : Res (Table E) :=
  if t.buckets.length < t.nb then .ub .outOfBounds
  else if g then doRehash t pNewSize
  else if t.entries.isEmpty then .ok ⟨false, [], pNewSize, t.ne, 0⟩
  else if pNewSize = 0 then .ub .divZero
  else .ub .nullDeref

/-- `mayRehash` (bits/HashBase.tcc 231-246). -/
def mayRehashA (g : Bool) (t : Table E) : Res (Table E) :=
  if w32 (t.ne * 4) > w32 (t.nb * 3) then doRehashA g t (computeBucketSize t.nb)
  else if w32 (sub32 t.nb (w32 (t.ne + t.nt)) * 8) < t.nb then doRehashA g t t.nb
  else .ok t

/-- `HashTable::insert` (bits/HashTable.tcc 114-142); see `insertE`. When the entry is refused, it is constructed at a null pointer (132). -/
def insertEA (g : Grant) (hash : K → UInt32) (keyOf : E → Option K) (t : Table E) (k : K) (mk : E) : Res (Table E × Nat × Bool) := do
  let (t, i) ← lookupBucketForA g.arr hash keyOf t k
  match t.buckets[i]? with
  | none => .ub .outOfBounds
  | some b =>
    match b.slot with
    | .full _ => .ok (t, i, true)
    | s =>
      if g.entry then
        let nt := match s with
          | .tomb => sub32 t.nt 1
          | _ => t.nt
        let t' ← mayRehashA g.re { t with buckets := t.buckets.set i { b with slot := .full mk }, nt := nt, ne := w32 (t.ne + 1) }
        .ok (t', i, false)
      else .ub .nullDeref

/-- `HashTable::erase` (bits/HashTable.tcc 147-162); see `eraseE`. -/
def eraseEA (g : Grant) (hash : K → UInt32) (keyOf : E → Option K) (t : Table E) (k : K) : Res (Table E × Option E) := do
  match ← findKey hash keyOf t k with
  | none => .ok (t, none)
  | some i =>
    if i < 2147483648 then
      match t.buckets[i]? with
      | none => .ub .outOfBounds
      | some b =>
        match b.slot with
        | .full e =>
          let t' ← mayRehashA g.re { t with buckets := t.buckets.set i { b with slot := .tomb }, ne := sub32 t.ne 1, nt := w32 (t.nt + 1) }
          .ok (t', some e)
        | _ => .ub .nullDeref
    else .ub .outOfBounds

end Table

namespace HashTable
variable {K V : Type} [DecidableEq K]

/-- `HashTable::insert` (bits/HashTable.tcc 114-142). -/
def insertA (g : Grant) (hash : K → UInt32) (dflt : V) (h : Heap K V) (t : Table Nat) (k : K) : Res (Heap K V × Table Nat × Nat × Bool) := do
  let (h', p) := h.alloc k dflt
  let (t', i, exist) ← Table.insertEA g hash h.keyOf t k p
  if exist then
    match t'.buckets[i]? with
    | some ⟨_, .full q⟩ => .ok (h, t', q, true)
    | _ => .ub .nullDeref
  else .ok (h', t', p, false)

/-- `t.insert(k, exist)->setValue(v)`. -/
def assignA (g : Grant) (hash : K → UInt32) (dflt : V) (h : Heap K V) (t : Table Nat) (k : K) (v : V) :
    Res (Heap K V × Table Nat × Nat × Bool) := do
  let (h, t, p, exist) ← insertA g hash dflt h t k
  let h ← h.setVal p v
  .ok (h, t, p, exist)

/-- `HashTable::erase` (bits/HashTable.tcc 147-162). -/
def eraseA (g : Grant) (hash : K → UInt32) (h : Heap K V) (t : Table Nat) (k : K) : Res (Heap K V × Table Nat × Bool) := do
  let (t, r) ← Table.eraseEA g hash h.keyOf t k
  match r with
  | none => .ok (h, t, false)
  | some p => do
    let h ← h.free p
    .ok (h, t, true)

/-- One operation; see `step`. `find` and `clear` (bits/HashTable.tcc 90-107, 166-184) request nothing. -/
def stepA (g : Grant) (hash : K → UInt32) (dflt : V) (h : Heap K V) (t : Table Nat) : TOp K V → Res (Heap K V × Table Nat × TRet V)
  | .insert k => do
    let (h, t, p, ex) ← insertA g hash dflt h t k
    let v ← h.getVal p
    .ok (h, t, .inserted ex v)
  | .assign k v => do
    let (h, t, p, ex) ← assignA g hash dflt h t k v
    let v ← h.getVal p
    .ok (h, t, .inserted ex v)
  | .erase k => do
    let (h, t, b) ← eraseA g hash h t k
    .ok (h, t, .erased b)
  | .find k => do
    let r ← lookup hash h t k
    .ok (h, t, .found r)
  | .clear => do
    let (h, t) ← clear h t
    .ok (h, t, .done)
  | .rehash => do
    let t ← t.mayRehashA g.re
    .ok (h, t, .done)
  | .rehashN n => do
    let t ← t.doRehashA g.re (w32 n)
    .ok (h, t, .done)

/-- A history, each operation with the answers to its requests. -/
def runOpsA (hash : K → UInt32) (dflt : V) (h : Heap K V) (t : Table Nat) : List (Grant × TOp K V) → Res (Heap K V × Table Nat × List (TRet V))
  | [] => .ok (h, t, [])
  | (g, op) :: ops => do
    let (h, t, r) ← stepA g hash dflt h t op
    let (h, t, rs) ← runOpsA hash dflt h t ops
    .ok (h, t, r :: rs)

/-- Copy constructor (bits/HashBase.tcc 60-70, bits/HashTable.tcc 18-34): `memcpy` between the arrays, either of which may be null; then the
entries. A request for 0 bytes is granted. -/
def copyA (g : Grant) (h : Heap K V) (src : Table Nat) : Res (Heap K V × Table Nat) :=
  if src.nb ≠ 0 ∧ (src.init = false ∨ g.arr = false) then .ub .nullDeref
  else if src.ne ≠ 0 ∧ g.entry = false then .ub .nullDeref
  else copy h src

end HashTable
end Eni
