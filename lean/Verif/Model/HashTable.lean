import Verif.Model.HashBase
/-!
# `eni::HashTable` (include/eni/adt/HashTable.h, bits/HashTable.tcc) and its iterators (bits/HashIterator.tcc)

Entries are heap objects. A bucket stores the address of its entry; the heap maps live addresses to key and value.
Simplified: addresses are handed out increasingly and never reused; `malloc` of an entry never fails
(see Model/HashAlloc for refused requests).
-/
namespace Eni

/-- An entry object `internal::Entry` (HashBase.h 17-37): key and value. -/
structure Cell (K V : Type) where
  key : K
  val : V
  deriving DecidableEq, Repr

/-- The heap restricted to entry objects. `cells a = none` means that `a` is not a live entry. -/
structure Heap (K V : Type) where
  next : Nat
  cells : Nat → Option (Cell K V)

namespace Heap
variable {K V : Type}

/-- The empty heap. -/
def empty : Heap K V := ⟨0, fun _ => none⟩

/-- `m_EntryAlloc.allocate(1, &key)` followed by placement `new Entry(key)` and possibly `setValue(v)`
(MallocAllocator.h, bits/HashTable.tcc 29-31, 129-133). -/
def alloc (h : Heap K V) (k : K) (v : V) : Heap K V × Nat :=
  (⟨h.next + 1, fun a => if a = h.next then some ⟨k, v⟩ else h.cells a⟩, h.next)

/-- `~entry_type(); m_EntryAlloc.deallocate(p)` (bits/HashTable.tcc 99-100, 154-155). -/
def free (h : Heap K V) (p : Nat) : Res (Heap K V) :=
  match h.cells p with
  | none => .ub .doubleFree
  | some _ => .ok ⟨h.next, fun a => if a = p then none else h.cells a⟩

/-- `entry->setValue(v)` / assignment through `entry->value()` (HashBase.h 29-32). -/
def setVal (h : Heap K V) (p : Nat) (v : V) : Res (Heap K V) :=
  match h.cells p with
  | none => .ub .useAfterFree
  | some c => .ok ⟨h.next, fun a => if a = p then some { c with val := v } else h.cells a⟩

/-- `entry->value()`. -/
def getVal (h : Heap K V) (p : Nat) : Res V :=
  match h.cells p with
  | none => .ub .useAfterFree
  | some c => .ok c.val

/-- `entry->key()`. -/
def keyOf (h : Heap K V) (p : Nat) : Option K := (h.cells p).map Cell.key

/-- Releases a list of entries, left to right. -/
def freeAll (h : Heap K V) : List Nat → Res (Heap K V)
  | [] => .ok h
  | p :: ps => do
    let h ← h.free p
    h.freeAll ps

end Heap

namespace HashTable
variable {K V : Type} [DecidableEq K]

/-- `HashTable::insert` (bits/HashTable.tcc 114-142): heap, table, returned entry pointer, `pExist`.
The value of a new entry is default-initialised: `dflt` (for scalar value types it is indeterminate; take
`V = Option Int` with `dflt = none` for that reading). -/
def insert (hash : K → UInt32) (dflt : V) (h : Heap K V) (t : Table Nat) (k : K) :
    Res (Heap K V × Table Nat × Nat × Bool) := do
  let (h', p) := h.alloc k dflt
  let (t', i, exist) ← Table.insertE hash h.keyOf t k p
  if exist then
    match t'.buckets[i]? with
    | some ⟨_, .full q⟩ => .ok (h, t', q, true)
    | _ => .ub .nullDeref
  else .ok (h', t', p, false)

/-- Insert-or-assign: `t.insert(k, exist)->setValue(v)`, the way the table is used everywhere
(e.g. test/unittests/adt, StringMap.h 72-76). -/
def assign (hash : K → UInt32) (dflt : V) (h : Heap K V) (t : Table Nat) (k : K) (v : V) :
    Res (Heap K V × Table Nat × Nat × Bool) := do
  let (h, t, p, exist) ← insert hash dflt h t k
  let h ← h.setVal p v
  .ok (h, t, p, exist)

/-- `HashTable::erase` (bits/HashTable.tcc 147-162). -/
def erase (hash : K → UInt32) (h : Heap K V) (t : Table Nat) (k : K) : Res (Heap K V × Table Nat × Bool) := do
  let (t, r) ← Table.eraseE hash h.keyOf t k
  match r with
  | none => .ok (h, t, false)
  | some p => do
    let h ← h.free p
    .ok (h, t, true)

/-- `HashTable::find` (bits/HashTable.tcc 167-186): pointer of the entry, `none` for `end()`. -/
def find (hash : K → UInt32) (h : Heap K V) (t : Table Nat) (k : K) : Res (Option Nat) :=
  Table.findE hash h.keyOf t k

/-- `find` followed by reading `it->value()`. -/
def lookup (hash : K → UInt32) (h : Heap K V) (t : Table Nat) (k : K) : Res (Option V) := do
  match ← find hash h t k with
  | none => .ok none
  | some p => do
    let v ← h.getVal p
    .ok (some v)

/-- `HashTable::clear` (bits/HashTable.tcc 90-107): returns early when there are no entries, so that tombstones
and the bucket array stay; otherwise releases the entries in bucket order and then the array. -/
def clear (h : Heap K V) (t : Table Nat) : Res (Heap K V × Table Nat) :=
  if t.ne = 0 then .ok (h, t)
  else do
    let h ← h.freeAll t.entries
    .ok (h, Table.null)

/-- `HashTable::~HashTable` (bits/HashTable.tcc 48-51) followed by `~TableImpl` (HashBase.h 84). -/
def destroy (h : Heap K V) (t : Table Nat) : Res (Heap K V) := do
  let (h, _) ← clear h t
  .ok h

/-- `HashTable::rehash()` (bits/HashTable.tcc 207-210). -/
def rehash (t : Table Nat) : Res (Table Nat) := t.mayRehash

/-- `HashTable::rehash(size_type)` (bits/HashTable.tcc 214-217); the argument is narrowed to 32 bits by `doRehash`. -/
def rehashN (t : Table Nat) (n : Nat) : Res (Table Nat) := t.doRehash (w32 n)

/-- The loop of the copy constructor and of copy assignment (bits/HashTable.tcc 24-33, 63-72): every full bucket
gets a freshly allocated entry with key and value of the source entry. -/
def copyBuckets (h : Heap K V) : List (Bucket Nat) → Res (Heap K V × List (Bucket Nat))
  | [] => .ok (h, [])
  | b :: bs =>
    match b.slot with
    | .full p =>
      match h.cells p with
      | none => .ub .useAfterFree
      | some c => do
        let (h, q) := h.alloc c.key c.val
        let (h, bs) ← copyBuckets h bs
        .ok (h, { b with slot := .full q } :: bs)
    | _ => do
      let (h, bs) ← copyBuckets h bs
      .ok (h, b :: bs)

/-- Copy constructor: `TableImpl(const TableImpl&)` (bits/HashBase.tcc 60-70) and `HashTable(const HashTable&)`
(bits/HashTable.tcc 18-34). `malloc(0)` is not null (glibc), so the copy of a table without array
has `isInit()` true and no buckets. -/
def copy (h : Heap K V) (src : Table Nat) : Res (Heap K V × Table Nat) :=
  if src.ne = 0 then .ok (h, { src with init := true })
  else do
    let (h, bs) ← copyBuckets h src.buckets
    .ok (h, { src with init := true, buckets := bs })

/-- Copy assignment from a different table: `TableImpl::operator=` (bits/HashBase.tcc 91-105) and
`HashTable::operator=` (bits/HashTable.tcc 57-74). The old entries of the destination are not released. -/
def copyAssign (h : Heap K V) (_dst src : Table Nat) : Res (Heap K V × Table Nat) := do
  let (h, bs) ← copyBuckets h src.buckets
  .ok (h, { src with init := true, buckets := bs })

/-- Copy assignment of a table to itself: `TableImpl::operator=` first clears `*this`, which is also the source
(bits/HashBase.tcc 93-101). -/
def selfAssign (h : Heap K V) (t : Table Nat) : Res (Heap K V × Table Nat) :=
  let src := if t.init then Table.null else t
  copyAssign h src src

/-- Move constructor and move assignment (bits/HashBase.tcc 73-88, 109-123; bits/HashTable.tcc 36-43, 76-86, whose allocators have no state): new table and what is left of the source. -/
def move (src : Table Nat) : Table Nat × Table Nat := (src, Table.null)

/-! ## Iterators -/

/-- `EntryIterBase` (HashIterator.h 65-110): `none` is the reset iterator `(NULL, 0)` = `end()`. -/
abbrev EntryIter := Option Nat

/-- The loops of `begin` (bits/HashTable.tcc 226-231) and `advance` (bits/HashIterator.tcc 231-238): first full bucket in
the list `bs`, which starts at index `i`. `none` if the list is exhausted. -/
def scanFull {E : Type} : List (Bucket E) → Nat → Option Nat
  | [], _ => none
  | b :: bs, i =>
    match b.slot with
    | .full _ => some i
    | _ => scanFull bs (i + 1)

/-- `HashTable::begin` (bits/HashTable.tcc 222-232, 243-254). The scan has no bound of its own: without a full bucket it
leaves the array. -/
def begin_ {E : Type} (t : Table E) : Res EntryIter :=
  if t.ne = 0 then .ok none
  else match scanFull t.buckets 0 with
    | some i => .ok (some i)
    | none => .ub .outOfBounds

/-- `HashTable::end` (bits/HashTable.tcc 234-240). -/
def end_ : EntryIter := none

/-- `EntryIterBase::advance` (bits/HashIterator.tcc 227-239). The end is recognised by `++m_Index == numOfBuckets()`: a stale
iterator, whose index is no longer below the number of buckets, runs past it and leaves the array. -/
def advance {E : Type} (t : Table E) : EntryIter → Res EntryIter
  | none => .throw .invalidIteratorEmpty
  | some i =>
    if i < t.nb then .ok (scanFull ((t.buckets.take t.nb).drop (i + 1)) (i + 1))
    else .ub .outOfBounds

/-- `HashTable::find` (bits/HashTable.tcc 167-186) as the iterator it returns. -/
def findIter (hash : K → UInt32) (h : Heap K V) (t : Table Nat) (k : K) : Res EntryIter := Table.findKey hash h.keyOf t k

/-- `EntryIterBase::getEntry` (bits/HashIterator.tcc 202-217) and access to the entry; a bucket without entry gives an invalid pointer. -/
def getEntry {E : Type} (t : Table E) : EntryIter → Res E
  | none => .throw .invalidIteratorEmpty
  | some i =>
    match t.buckets[i]? with
    | some ⟨_, .full e⟩ => .ok e
    | _ => .ub .outOfBounds

/-- `for (it = t.begin(); it != t.end(); ++it) visit(it)`: the visited entries from `it` on. Fuel counts iterations. -/
def visitFrom {E : Type} (t : Table E) : Nat → EntryIter → Res (List E)
  | _, none => .ok []
  | 0, some _ => .diverge
  | fuel + 1, some i => do
    let e ← getEntry t (some i)
    let it ← advance t (some i)
    let es ← visitFrom t fuel it
    .ok (e :: es)

/-- The whole iteration. The index grows with every step, so `nb` iterations suffice
(`visit` never diverges on a well-formed table, see C03). -/
def visit {E : Type} (t : Table E) : Res (List E) := do
  let it ← begin_ t
  visitFrom t t.nb it

/-- `ChainIterBase` (HashIterator.h 19-60): `none` is the reset iterator; otherwise index, hash value and end index. -/
structure ChainIter where
  index : Nat
  hash : UInt32
  endIndex : Nat
  deriving DecidableEq, Repr

/-- The loop of the constructor `ChainIterBase(HT*, const key_type&)` (bits/HashIterator.tcc 23-43). An empty bucket whose
hash field equals the hash value is dereferenced (lines 28-29): only tombstones are skipped. -/
def chainBeginLoop {E : Type} (keyOf : E → Option K) (t : Table E) (h : UInt32) (k : K) (start : Nat) :
    Nat → Nat → Res (Option ChainIter)
  | 0, _ => .diverge
  | fuel + 1, i =>
    let next : Res (Option ChainIter) :=
      let j := Table.nextIdx t.nb i
      if start = j then .ok none else chainBeginLoop keyOf t h k start fuel j
    match t.buckets[i]? with
    | none => .ub .outOfBounds
    | some b =>
      match b.slot with
      | .tomb => next
      | .empty => if h = b.hash then .ub .nullDeref else next
      | .full e =>
        if h = b.hash then
          match keyOf e with
          | none => .ub .useAfterFree
          | some k' => if k' = k then .ok (some ⟨i, h, i⟩) else next
        else next

/-- `HashTable::begin(key)` (bits/HashTable.tcc 264-270, 280-286), `ChainIterBase` constructor (bits/HashIterator.tcc 17-44). -/
def chainBegin {E : Type} (hash : K → UInt32) (keyOf : E → Option K) (t : Table E) (k : K) : Res (Option ChainIter) :=
  if t.nb = 0 then .ub .divZero
  else chainBeginLoop keyOf t (hash k) k ((hash k).toNat % t.nb) (t.nb + 1) ((hash k).toNat % t.nb)

/-- `ChainIterBase::advance` (bits/HashIterator.tcc 116-142). -/
def chainAdvanceLoop {E : Type} (t : Table E) (it : ChainIter) : Nat → Nat → Res (Option ChainIter)
  | 0, _ => .diverge
  | fuel + 1, i =>
    let j := Table.nextIdx t.nb i
    if j = it.endIndex then .ok none
    else match t.buckets[j]? with
      | none => .ub .outOfBounds
      | some b =>
        match b.slot with
        | .full _ => if it.hash = b.hash then .ok (some { it with index := j }) else chainAdvanceLoop t it fuel j
        | _ => chainAdvanceLoop t it fuel j

/-- The loop of `count` (bits/HashTable.tcc 193-194). -/
def countLoop {E : Type} (t : Table E) : Nat → Option ChainIter → Res Nat
  | _, none => .ok 0
  | 0, some _ => .diverge
  | fuel + 1, some it => do
    let it' ← chainAdvanceLoop t it (t.nb + 1) it.index
    let n ← countLoop t fuel it'
    .ok (n + 1)

/-- `HashTable::count` (bits/HashTable.tcc 189-196). -/
def count {E : Type} (hash : K → UInt32) (keyOf : E → Option K) (t : Table E) (k : K) : Res Nat := do
  let it ← chainBegin hash keyOf t k
  countLoop t (t.nb + 1) it

end HashTable

/-! ## Programs with several tables -/

/-- The state of a program that uses tables of one type: the entry heap and the table variables alive. -/
structure World (K V : Type) where
  heap : Heap K V
  tabs : Nat → Option (Table Nat)

/-- The statements such a program can execute. Table variables are numbered. -/
inductive Stmt (K V : Type) where
  | new (i size : Nat)            -- HashTable t_i(size);
  | copyNew (i j : Nat)           -- HashTable t_i(t_j);
  | moveNew (i j : Nat)           -- HashTable t_i(std::move(t_j));
  | copyAssign (i j : Nat)        -- t_i = t_j;
  | moveAssign (i j : Nat)        -- t_i = std::move(t_j);
  | destroy (i : Nat)             -- end of the life of t_i
  | insert (i : Nat) (k : K)
  | assign (i : Nat) (k : K) (v : V)
  | erase (i : Nat) (k : K)
  | find (i : Nat) (k : K)
  | clear (i : Nat)
  | rehash (i : Nat)
  | rehashN (i n : Nat)

namespace World
variable {K V : Type} [DecidableEq K]

def setTab (w : World K V) (i : Nat) (t : Option (Table Nat)) : World K V :=
  { w with tabs := fun j => if j = i then t else w.tabs j }

/-- Using a variable outside its life time is undefined. -/
def tab (w : World K V) (i : Nat) : Res (Table Nat) :=
  match w.tabs i with
  | some t => .ok t
  | none => .ub .useAfterFree

/-- One statement. Move assignment to itself does nothing (bits/HashBase.tcc 111). -/
def step (hash : K → UInt32) (dflt : V) (w : World K V) : Stmt K V → Res (World K V)
  | .new i n => .ok (w.setTab i (some (Table.new n)))
  | .copyNew i j => do
    let t ← w.tab j
    let (h, t') ← HashTable.copy w.heap t
    .ok ({ w with heap := h }.setTab i (some t'))
  | .moveNew i j => do
    let t ← w.tab j
    let (a, b) := HashTable.move t
    .ok ((w.setTab j (some b)).setTab i (some a))
  | .copyAssign i j => do
    let ti ← w.tab i
    let tj ← w.tab j
    let (h, t') ← if i = j then HashTable.selfAssign w.heap ti else HashTable.copyAssign w.heap ti tj
    .ok ({ w with heap := h }.setTab i (some t'))
  | .moveAssign i j => do
    let _ ← w.tab i
    let tj ← w.tab j
    if i = j then .ok w
    else
      let (a, b) := HashTable.move tj
      .ok ((w.setTab j (some b)).setTab i (some a))
  | .destroy i => do
    let t ← w.tab i
    let h ← HashTable.destroy w.heap t
    .ok ({ w with heap := h }.setTab i none)
  | .insert i k => do
    let t ← w.tab i
    let (h, t', _, _) ← HashTable.insert hash dflt w.heap t k
    .ok ({ w with heap := h }.setTab i (some t'))
  | .assign i k v => do
    let t ← w.tab i
    let (h, t', _, _) ← HashTable.assign hash dflt w.heap t k v
    .ok ({ w with heap := h }.setTab i (some t'))
  | .erase i k => do
    let t ← w.tab i
    let (h, t', _) ← HashTable.erase hash w.heap t k
    .ok ({ w with heap := h }.setTab i (some t'))
  | .find i k => do
    let t ← w.tab i
    let _ ← HashTable.lookup hash w.heap t k
    .ok w
  | .clear i => do
    let t ← w.tab i
    let (h, t') ← HashTable.clear w.heap t
    .ok ({ w with heap := h }.setTab i (some t'))
  | .rehash i => do
    let t ← w.tab i
    let t' ← HashTable.rehash t
    .ok (w.setTab i (some t'))
  | .rehashN i n => do
    let t ← w.tab i
    let t' ← HashTable.rehashN t n
    .ok (w.setTab i (some t'))

/-- A whole program. -/
def run (hash : K → UInt32) (dflt : V) (w : World K V) : List (Stmt K V) → Res (World K V)
  | [] => .ok w
  | s :: ss => do
    let w ← step hash dflt w s
    run hash dflt w ss

/-- Start of the program: no tables, empty heap. -/
def start : World K V := ⟨Heap.empty, fun _ => none⟩

end World
end Eni

/-! ## Histories on one table -/
namespace Eni

/-- The public operations on one table. -/
inductive TOp (K V : Type) where
  | insert (k : K)             -- t.insert(k, exist)
  | assign (k : K) (v : V)     -- t.insert(k, exist)->setValue(v)
  | erase (k : K)
  | find (k : K)
  | clear
  | rehash
  | rehashN (n : Nat)

/-- What an operation reports: `inserted exist value` is `pExist` and the value held by the returned entry. -/
inductive TRet (V : Type) where
  | inserted (exist : Bool) (v : V)
  | erased (b : Bool)
  | found (v : Option V)
  | done
  deriving DecidableEq

namespace HashTable
variable {K V : Type} [DecidableEq K]

/-- One operation on heap and table. -/
def step (hash : K → UInt32) (dflt : V) (h : Heap K V) (t : Table Nat) : TOp K V → Res (Heap K V × Table Nat × TRet V)
  | .insert k => do
    let (h, t, p, ex) ← insert hash dflt h t k
    let v ← h.getVal p
    .ok (h, t, .inserted ex v)
  | .assign k v => do
    let (h, t, p, ex) ← assign hash dflt h t k v
    let v ← h.getVal p
    .ok (h, t, .inserted ex v)
  | .erase k => do
    let (h, t, b) ← erase hash h t k
    .ok (h, t, .erased b)
  | .find k => do
    let r ← lookup hash h t k
    .ok (h, t, .found r)
  | .clear => do
    let (h, t) ← clear h t
    .ok (h, t, .done)
  | .rehash => do
    let t ← rehash t
    .ok (h, t, .done)
  | .rehashN n => do
    let t ← rehashN t n
    .ok (h, t, .done)

/-- A history of operations: final state and all reports. -/
def runOps (hash : K → UInt32) (dflt : V) (h : Heap K V) (t : Table Nat) :
    List (TOp K V) → Res (Heap K V × Table Nat × List (TRet V))
  | [] => .ok (h, t, [])
  | op :: ops => do
    let (h, t, r) ← step hash dflt h t op
    let (h, t, rs) ← runOps hash dflt h t ops
    .ok (h, t, r :: rs)

end HashTable
end Eni
