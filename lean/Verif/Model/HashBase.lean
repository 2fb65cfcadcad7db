import Verif.Model.Basic
/-!
# `eni::internal::TableImpl` (include/eni/adt/HashBase.h, include/eni/adt/bits/HashBase.tcc)

The bucket array stores entry pointers. The model is generic in the type `E` of what a bucket stores; reading
the key of an entry (`bucket.entry->key()`) is a partial function `keyOf : E → Option K`, `none` meaning that
the entry object is gone (undefined behaviour). Instances: heap addresses (Model/HashTable) and inline
entries (Model/StringMap).
-/
namespace Eni

/-- `entry_type*` of a bucket: `EmptyBucket()` (0x0), `Tombstone()` (0x1) or a real entry
(bits/HashBase.tcc 288-302). -/
inductive Slot (E : Type) where
  | empty
  | tomb
  | full (e : E)
  deriving DecidableEq, Repr

/-- `struct Bucket` (HashBase.h 71-75): `unsigned int hash; entry_type* entry;`. -/
structure Bucket (E : Type) where
  hash : UInt32
  slot : Slot E
  deriving DecidableEq, Repr

/-- A `calloc`ed bucket: hash 0, entry null (= `EmptyBucket()`). -/
def Bucket.zero {E : Type} : Bucket E := ⟨0, .empty⟩

/-- Data members of `TableImpl` (HashBase.h 137-143). `init` is `m_Buckets != NULL` (`isInit`, line 135);
`buckets` is the array behind `m_Buckets` (empty list when null or when allocated with size 0).
`nb`, `ne`, `nt` are `m_NumOfBuckets`, `m_NumOfEntries`, `m_NumOfTombstones`, 32-bit unsigned.
Simplified: the address of the bucket array is not modelled and `malloc`/`calloc` of the array never fail
(see Model/HashAlloc for refused requests). -/
structure Table (E : Type) where
  init : Bool
  buckets : List (Bucket E)
  nb : Nat
  ne : Nat
  nt : Nat
  deriving DecidableEq, Repr

namespace Table

variable {E K : Type}

/-- The array `bucket_size` of `compute_bucket_size` (bits/HashBase.tcc 15-19). -/
def bucketSizes : List Nat :=
  [1, 3, 17, 37, 67, 97, 197, 419, 977, 2593, 4099, 8209, 12289,
   16411, 20483, 32771, 49157, 65537, 98317, 131101, 196613]

/-- The `do`-loop of `compute_bucket_size` (bits/HashBase.tcc 24-32) over the rest of the array. -/
def computeBucketSizeFrom (n : Nat) : List Nat → Nat
  | [] => w32 (n + 131101)
  | s :: rest => if n < s then s else computeBucketSizeFrom n rest

/-- `compute_bucket_size` (bits/HashBase.tcc 13-33). -/
def computeBucketSize (n : Nat) : Nat := computeBucketSizeFrom n bucketSizes

/-- `TableImpl()` (bits/HashBase.tcc 39-44). Also the state left behind by a move (84-87, 117-120) and by
`TableImpl::clear` (142-150). -/
def null : Table E := ⟨false, [], 0, 0, 0⟩

/-- `init` (bits/HashBase.tcc 127-138), `NumOfInitBuckets = 16` (line 8). -/
def initTable (pInitSize : Nat) : Table E :=
  let n := if pInitSize ≠ 0 then computeBucketSize pInitSize else 16
  ⟨true, List.replicate n Bucket.zero, n, 0, 0⟩

/-- `TableImpl(unsigned)` (bits/HashBase.tcc 47-57) reached through `HashTable(size_type)`
(bits/HashTable.tcc 11-13), which narrows the `size_t` argument to 32 bits. -/
def new (pSize : Nat) : Table E :=
  if w32 pSize ≠ 0 then initTable (w32 pSize) else null

/-- `++index; if (index == numOfBuckets()) index = 0;` (bits/HashBase.tcc 192-194, 224-226, 270-272). -/
def nextIdx (nb i : Nat) : Nat := if i + 1 = nb then 0 else i + 1

/-- The probe loop of `findKey` (bits/HashBase.tcc 210-227). Fuel counts iterations. -/
def findLoop [DecidableEq K] (keyOf : E → Option K) (bs : List (Bucket E)) (nb : Nat) (h : UInt32) (k : K) :
    Nat → Nat → Res (Option Nat)
  | 0, _ => .diverge
  | fuel + 1, i =>
    match bs[i]? with
    | none => .ub .outOfBounds
    | some b =>
      match b.slot with
      | .empty => .ok none
      | .tomb => findLoop keyOf bs nb h k fuel (nextIdx nb i)
      | .full e =>
        if b.hash = h then
          match keyOf e with
          | none => .ub .useAfterFree
          | some k' =>
            if k' = k then .ok (some i) else findLoop keyOf bs nb h k fuel (nextIdx nb i)
        else findLoop keyOf bs nb h k fuel (nextIdx nb i)

/-- `findKey` (bits/HashBase.tcc 199-228); the result -1 is `none`. The loop state is the index alone, so after
`nb` iterations without an answer it repeats for ever: `nb + 1` iterations decide (see
`findLoop_diverge_all`). -/
def findKey [DecidableEq K] (hash : K → UInt32) (keyOf : E → Option K) (t : Table E) (k : K) : Res (Option Nat) :=
  if t.init = false then .ok none
  else if t.nb = 0 then .ub .divZero
  else findLoop keyOf t.buckets t.nb (hash k) k (t.nb + 1) ((hash k).toNat % t.nb)

/-- The probe loop of `lookupBucketFor` (bits/HashBase.tcc 168-195). The result is the array after the store to
`.hash` and the returned index. `ft` is `first_tombstone`, an `int`: an index from 2^31 on turns negative and
the access `m_Buckets[first_tombstone]` (line 173) leaves the array. -/
def lookupLoop [DecidableEq K] (keyOf : E → Option K) (bs : List (Bucket E)) (nb : Nat) (h : UInt32) (k : K) :
    Nat → Nat → Option Nat → Res (List (Bucket E) × Nat)
  | 0, _, _ => .diverge
  | fuel + 1, i, ft =>
    match bs[i]? with
    | none => .ub .outOfBounds
    | some b =>
      match b.slot with
      | .empty =>
        match ft with
        | some j =>
          if j < 2147483648 then
            match bs[j]? with
            | some bj => .ok (bs.set j { bj with hash := h }, j)
            | none => .ub .outOfBounds
          else .ub .outOfBounds
        | none => .ok (bs.set i { b with hash := h }, i)
      | .tomb =>
        lookupLoop keyOf bs nb h k fuel (nextIdx nb i) (match ft with | none => some i | some j => some j)
      | .full e =>
        if b.hash = h then
          match keyOf e with
          | none => .ub .useAfterFree
          | some k' =>
            if k' = k then .ok (bs, i) else lookupLoop keyOf bs nb h k fuel (nextIdx nb i) ft
        else lookupLoop keyOf bs nb h k fuel (nextIdx nb i) ft

/-- `lookupBucketFor` (bits/HashBase.tcc 154-196): allocates 17 buckets when there is no array yet. -/
def lookupBucketFor [DecidableEq K] (hash : K → UInt32) (keyOf : E → Option K) (t : Table E) (k : K) :
    Res (Table E × Nat) :=
  let t := if t.init = false then initTable 16 else t
  if t.nb = 0 then .ub .divZero
  else do
    let (bs, i) ← lookupLoop keyOf t.buckets t.nb (hash k) k (t.nb + 1) ((hash k).toNat % t.nb) none
    .ok ({ t with buckets := bs }, i)

/-- The search for a free bucket in `doRehash` (bits/HashBase.tcc 260-273). The fast path (261-265) and the
`do .. while` probe (269-273) are one loop here: test the bucket, advance when occupied. -/
def placeLoop (bs : List (Bucket E)) (n : Nat) : Nat → Nat → Res Nat
  | 0, _ => .diverge
  | fuel + 1, i =>
    match bs[i]? with
    | none => .ub .outOfBounds
    | some b =>
      match b.slot with
      | .empty => .ok i
      | _ => placeLoop bs n fuel (nextIdx n i)

/-- The `for` loop of `doRehash` (bits/HashBase.tcc 256-279) over the remaining old buckets; `acc` is `new_table`. -/
def rehashInto (n : Nat) : List (Bucket E) → List (Bucket E) → Res (List (Bucket E))
  | [], acc => .ok acc
  | b :: rest, acc =>
    match b.slot with
    | .full e =>
      if n = 0 then .ub .divZero
      else do
        let i ← placeLoop acc n (n + 1) (b.hash.toNat % n)
        rehashInto n rest (acc.set i ⟨b.hash, .full e⟩)
    | _ => rehashInto n rest acc

/-- `doRehash` (bits/HashBase.tcc 249-286). With `pNewSize = 0` the new array is a zero-sized block
(glibc `calloc(0, ..)` is not null). -/
def doRehash (t : Table E) (pNewSize : Nat) : Res (Table E) :=
  if t.buckets.length < t.nb then .ub .outOfBounds
  else do
    let bs ← rehashInto pNewSize (t.buckets.take t.nb) (List.replicate pNewSize Bucket.zero)
    .ok { init := true, buckets := bs, nb := pNewSize, ne := t.ne, nt := 0 }

/-- `mayRehash` (bits/HashBase.tcc 231-246), all arithmetic 32-bit unsigned. -/
def mayRehash (t : Table E) : Res (Table E) :=
  if w32 (t.ne * 4) > w32 (t.nb * 3) then doRehash t (computeBucketSize t.nb)
  else if w32 (sub32 t.nb (w32 (t.ne + t.nt)) * 8) < t.nb then doRehash t t.nb
  else .ok t

/-- `HashTable::insert` (bits/HashTable.tcc 114-142) up to the allocation of the entry: `mk` is the freshly
constructed entry that is stored when the key is new. Returns the table, the bucket index found by
`lookupBucketFor` and `pExist`. (After a rehash the index is no longer meaningful; callers use it only when
`pExist` is true.) -/
def insertE [DecidableEq K] (hash : K → UInt32) (keyOf : E → Option K) (t : Table E) (k : K) (mk : E) :
    Res (Table E × Nat × Bool) := do
  let (t, i) ← lookupBucketFor hash keyOf t k
  match t.buckets[i]? with
  | none => .ub .outOfBounds
  | some b =>
    match b.slot with
    | .full _ => .ok (t, i, true)
    | s =>
      let nt := match s with
        | .tomb => sub32 t.nt 1
        | _ => t.nt
      let t' ← mayRehash { t with buckets := t.buckets.set i { b with slot := .full mk },
                                  nt := nt, ne := w32 (t.ne + 1) }
      .ok (t', i, false)

/-- `HashTable::erase` (bits/HashTable.tcc 147-162) without the release of the entry. Returns the table and the
entry that was removed, if any. `findKey` returns an `int`: an index from 2^31 on is negative and
`m_Buckets[index]` leaves the array. -/
def eraseE [DecidableEq K] (hash : K → UInt32) (keyOf : E → Option K) (t : Table E) (k : K) :
    Res (Table E × Option E) := do
  match ← findKey hash keyOf t k with
  | none => .ok (t, none)
  | some i =>
    if i < 2147483648 then
      match t.buckets[i]? with
      | none => .ub .outOfBounds
      | some b =>
        match b.slot with
        | .full e =>
          let t' ← mayRehash { t with buckets := t.buckets.set i { b with slot := .tomb },
                                      ne := sub32 t.ne 1, nt := w32 (t.nt + 1) }
          .ok (t', some e)
        | _ => .ub .nullDeref
    else .ub .outOfBounds

/-- `HashTable::find` (bits/HashTable.tcc 167-186): the entry the returned iterator designates, `none` for `end()`. -/
def findE [DecidableEq K] (hash : K → UInt32) (keyOf : E → Option K) (t : Table E) (k : K) : Res (Option E) := do
  match ← findKey hash keyOf t k with
  | none => .ok none
  | some i =>
    match t.buckets[i]? with
    | none => .ub .outOfBounds
    | some b =>
      match b.slot with
      | .full e => .ok (some e)
      | _ => .ub .nullDeref

/-- The entries stored in the buckets, in bucket order. Not a function of the C++ code: used to state properties. -/
def entries (t : Table E) : List E :=
  t.buckets.filterMap fun b => match b.slot with | .full e => some e | _ => none

/-- Number of tombstone buckets. Not a function of the C++ code: used to state properties. -/
def tombs (t : Table E) : Nat := t.buckets.countP fun b => match b.slot with | .tomb => true | _ => false

/-- Number of empty buckets. Not a function of the C++ code: used to state properties. -/
def empties (t : Table E) : Nat := t.buckets.countP fun b => match b.slot with | .empty => true | _ => false

end Table
end Eni
