import Verif.Model.HashTable
/-!
# `eni::HashTable` with entries that cannot be made (include/eni/adt/bits/HashTable.tcc)

The functions of Model/HashTable that construct entries, once more, for the case that the constructor of an entry throws: `entry_type(pKey)` copies the key
and default-initialises the value, and both may throw (a key that owns memory, a value whose constructor refuses). None of the functions contains a `catch` or
a guard object; an exception leaves the table in the state it has at that moment.

Simplified: memory itself is always given (refused memory is the subject of Model/HashAlloc), and the `operator=` of the value, called by `setValue`, does not
throw.
-/
namespace Eni.HThr
variable {K V : Type} [DecidableEq K]

/-- `HashTable::insert` (bits/HashTable.tcc 114-142) when `new (entry) entry_type(pKey)` (line 133) throws if it is reached. By then `lookupBucketFor` has
stored the hash value in the bucket (bits/HashBase.tcc 171-178), the number of tombstones has been lowered (126-127), and the memory of the entry has
been requested (130); the bucket itself has not been set up. The answer is the entry already there, or `none` for the exception. -/
def insertFail (hash : K → UInt32) (h : Heap K V) (t : Table Nat) (k : K) : Res (Table Nat × Option Nat) := do
  let (t, i) ← Table.lookupBucketFor hash h.keyOf t k
  match t.buckets[i]? with
  | none => .ub .outOfBounds
  | some b =>
    match b.slot with
    | .full q => .ok (t, some q)
    | .tomb => .ok ({ t with nt := sub32 t.nt 1 }, none)
    | .empty => .ok (t, none)

/-- What an operation reports: its result, or that the exception of the entry's constructor came out of it. -/
inductive TRep (V : Type) where
  | ret (r : TRet V)
  | threw
  deriving DecidableEq

/-- State of a program with one table: entry heap, table, and the number of blocks requested for entries that were never made; nothing points to them any more. -/
structure St (K V : Type) where
  heap : Heap K V
  tab : Table Nat
  lost : Nat

/-- An operation together with the statement whether the constructor of an entry, if the operation calls it, throws. -/
abbrev FOp (K V : Type) := TOp K V × Bool

/-- The key an operation inserts. -/
def keyIns : TOp K V → Option K
  | .insert k => some k
  | .assign k _ => some k
  | _ => none

/-- One operation. An insertion that finds its key makes no entry, so that it behaves as always (bits/HashTable.tcc 119-123). -/
def step (hash : K → UInt32) (dflt : V) (s : St K V) (f : FOp K V) : Res (St K V × TRep V) :=
  let normal : Res (St K V × TRep V) := do
    let (h, t, r) ← HashTable.step hash dflt s.heap s.tab f.1
    .ok (⟨h, t, s.lost⟩, .ret r)
  match keyIns f.1, f.2 with
  | some k, true => do
    match ← insertFail hash s.heap s.tab k with
    | (_, some _) => normal
    | (t, none) => .ok (⟨s.heap, t, s.lost + 1⟩, .threw)
  | _, _ => normal

/-- A history. The exceptions are caught by the caller. -/
def run (hash : K → UInt32) (dflt : V) (s : St K V) : List (FOp K V) → Res (St K V × List (TRep V))
  | [] => .ok (s, [])
  | f :: fs => do
    let (s, r) ← step hash dflt s f
    let (s, rs) ← run hash dflt s fs
    .ok (s, r :: rs)

/-- The loop of the copy constructor and of copy assignment (bits/HashTable.tcc 24-33, 63-72) when the constructor of the entry number `j` (from 0) throws. The
bucket of that entry already points to the requested block (line 29, 68), in which there is no object; the later buckets still hold the pointers copied from
the source (bits/HashBase.tcc 67, 101). -/
def copyFail (h : Heap K V) : Nat → List (Bucket Nat) → Res (Heap K V × List (Bucket Nat))
  | _, [] => .ok (h, [])
  | j, b :: bs =>
    match b.slot with
    | .full p =>
      match h.cells p with
      | none => .ub .useAfterFree
      | some c =>
        match j with
        | 0 => .ok (⟨h.next + 1, h.cells⟩, { b with slot := .full h.next } :: bs)
        | j + 1 => do
          let (h, q) := h.alloc c.key c.val
          let (h, bs) ← copyFail h j bs
          .ok (h, { b with slot := .full q } :: bs)
    | _ => do
      let (h, bs) ← copyFail h j bs
      .ok (h, b :: bs)

/-- Copy construction that fails at entry `j`: the base class is complete, so its destructor releases the bucket array (HashBase.h 84); the destructor of the
table itself is not run, and nobody releases the entries made so far. What is left is the heap. -/
def newCopyFail (h : Heap K V) (src : Table Nat) (j : Nat) : Res (Heap K V) := do
  let (h, _) ← copyFail h j src.buckets
  .ok h

/-- Copy assignment that fails at entry `j`: `TableImpl::operator=` (bits/HashBase.tcc 91-105) has already replaced the array of the destination. -/
def assignFail (h : Heap K V) (_dst src : Table Nat) (j : Nat) : Res (Heap K V × Table Nat) := do
  let (h, bs) ← copyFail h j src.buckets
  .ok (h, { src with init := true, buckets := bs })

end Eni.HThr
