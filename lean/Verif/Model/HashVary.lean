import Verif.Model.HashTable
/-!
# `eni::HashTable` with a hash function object that does not keep its answers

Every operation with a key constructs its own `hasher_type hasher;` and calls it once (bits/HashBase.tcc 160-161, 204-205), so the hash function may
be a different one in every call. Rehashing uses the stored hash values (bits/HashBase.tcc 253-260), copying a table copies them.
The key of a stored entry can be overwritten through `Entry::key()` (HashBase.h 27), which returns a reference to non-const.
-/
namespace Eni

namespace Heap
variable {K V : Type}

/-- `entry->key() = k` (HashBase.h 27). -/
def setKey (h : Heap K V) (p : Nat) (k : K) : Res (Heap K V) :=
  match h.cells p with
  | none => .ub .useAfterFree
  | some c => .ok ⟨h.next, fun a => if a = p then some { c with key := k } else h.cells a⟩

end Heap

/-- The operations on one table, with the assignment to the key of a stored entry. -/
inductive HVOp (K V : Type) where
  | op (o : TOp K V)
  | rekey (k k2 : K)       -- it = t.find(k); if (it != t.end()) it.getEntry()->key() = k2;

namespace HashTable
variable {K V : Type} [DecidableEq K]

/-- One operation, during which the hash function is `f`. For `rekey`: `find` (bits/HashTable.tcc 167-174), then `EntryIterBase::getEntry` (bits/HashIterator.tcc
202-217) and the assignment; it reports the value of the entry found. -/
def stepV (f : K → UInt32) (dflt : V) (h : Heap K V) (t : Table Nat) : HVOp K V → Res (Heap K V × Table Nat × TRet V)
  | .op o => step f dflt h t o
  | .rekey k k2 => do
    match ← find f h t k with
    | none => .ok (h, t, .found none)
    | some p => do
      let h ← h.setKey p k2
      let v ← h.getVal p
      .ok (h, t, .found (some v))

/-- A history; each operation comes with the hash function at that time. -/
def runV (dflt : V) (h : Heap K V) (t : Table Nat) : List ((K → UInt32) × HVOp K V) → Res (Heap K V × Table Nat × List (TRet V))
  | [] => .ok (h, t, [])
  | (f, op) :: ops => do
    let (h, t, r) ← stepV f dflt h t op
    let (h, t, rs) ← runV dflt h t ops
    .ok (h, t, r :: rs)

end HashTable
end Eni
