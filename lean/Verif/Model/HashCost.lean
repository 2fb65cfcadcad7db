import Verif.Model.HashTable
/-!
# The work done by rehashing

The functions of Model/HashBase and Model/HashTable that may rehash, with a count of the entries that are moved from one bucket array to
another. That the results are otherwise unchanged is `runOpsC_fst` in Proofs/HashCost and part of the property theorems.
-/
namespace Eni
namespace Table
variable {E K : Type}

/-- `rehashInto` (bits/HashBase.tcc 256-279), counting the stores into the new array (lines 275-276). -/
def rehashIntoC (n : Nat) : List (Bucket E) → List (Bucket E) → Res (List (Bucket E) × Nat)
  | [], acc => .ok (acc, 0)
  | b :: rest, acc =>
    match b.slot with
    | .full e =>
      if n = 0 then .ub .divZero
      else do
        let i ← placeLoop acc n (n + 1) (b.hash.toNat % n)
        let (r, c) ← rehashIntoC n rest (acc.set i ⟨b.hash, .full e⟩)
        .ok (r, c + 1)
    | _ => rehashIntoC n rest acc

/-- `doRehash` (bits/HashBase.tcc 249-286) with the count. -/
def doRehashC (t : Table E) (pNewSize : Nat) : Res (Table E × Nat) :=
  if t.buckets.length < t.nb then .ub .outOfBounds
  else do
    let (bs, c) ← rehashIntoC pNewSize (t.buckets.take t.nb) (List.replicate pNewSize Bucket.zero)
    .ok ({ init := true, buckets := bs, nb := pNewSize, ne := t.ne, nt := 0 }, c)

/-- `mayRehash` (bits/HashBase.tcc 231-246) with the count. -/
def mayRehashC (t : Table E) : Res (Table E × Nat) :=
  if w32 (t.ne * 4) > w32 (t.nb * 3) then doRehashC t (computeBucketSize t.nb)
  else if w32 (sub32 t.nb (w32 (t.ne + t.nt)) * 8) < t.nb then doRehashC t t.nb
  else .ok (t, 0)

/-- `insertE` (bits/HashTable.tcc 114-142) with the count. -/
def insertEC [DecidableEq K] (hash : K → UInt32) (keyOf : E → Option K) (t : Table E) (k : K) (mk : E) :
    Res ((Table E × Nat × Bool) × Nat) := do
  let (t, i) ← lookupBucketFor hash keyOf t k
  match t.buckets[i]? with
  | none => .ub .outOfBounds
  | some b =>
    match b.slot with
    | .full _ => .ok ((t, i, true), 0)
    | s =>
      let nt := match s with
        | .tomb => sub32 t.nt 1
        | _ => t.nt
      let (t', c) ← mayRehashC { t with buckets := t.buckets.set i { b with slot := .full mk },
                                        nt := nt, ne := w32 (t.ne + 1) }
      .ok ((t', i, false), c)

/-- `eraseE` (bits/HashTable.tcc 147-162) with the count. -/
def eraseEC [DecidableEq K] (hash : K → UInt32) (keyOf : E → Option K) (t : Table E) (k : K) :
    Res ((Table E × Option E) × Nat) := do
  match ← findKey hash keyOf t k with
  | none => .ok ((t, none), 0)
  | some i =>
    if i < 2147483648 then
      match t.buckets[i]? with
      | none => .ub .outOfBounds
      | some b =>
        match b.slot with
        | .full e =>
          let (t', c) ← mayRehashC { t with buckets := t.buckets.set i { b with slot := .tomb },
                                            ne := sub32 t.ne 1, nt := w32 (t.nt + 1) }
          .ok ((t', some e), c)
        | _ => .ub .nullDeref
    else .ub .outOfBounds

end Table

namespace HashTable
variable {K V : Type} [DecidableEq K]

/-- `insert` (bits/HashTable.tcc 114-142) with the count. -/
def insertC (hash : K → UInt32) (dflt : V) (h : Heap K V) (t : Table Nat) (k : K) :
    Res ((Heap K V × Table Nat × Nat × Bool) × Nat) := do
  let (h', p) := h.alloc k dflt
  let ((t', i, exist), c) ← Table.insertEC hash h.keyOf t k p
  if exist then
    match t'.buckets[i]? with
    | some ⟨_, .full q⟩ => .ok ((h, t', q, true), c)
    | _ => .ub .nullDeref
  else .ok ((h', t', p, false), c)

/-- One operation (see `step`; bits/HashTable.tcc 90-217) with the count. -/
def stepC (hash : K → UInt32) (dflt : V) (h : Heap K V) (t : Table Nat) : TOp K V → Res ((Heap K V × Table Nat × TRet V) × Nat)
  | .insert k => do
    let ((h, t, p, ex), c) ← insertC hash dflt h t k
    let v ← h.getVal p
    .ok ((h, t, .inserted ex v), c)
  | .assign k v => do
    let ((h, t, p, ex), c) ← insertC hash dflt h t k
    let h ← h.setVal p v
    let v ← h.getVal p
    .ok ((h, t, .inserted ex v), c)
  | .erase k => do
    let ((t, r), c) ← Table.eraseEC hash h.keyOf t k
    match r with
    | none => .ok ((h, t, .erased false), c)
    | some p => do
      let h ← h.free p
      .ok ((h, t, .erased true), c)
  | .find k => do
    let r ← lookup hash h t k
    .ok ((h, t, .found r), 0)
  | .clear => do
    let (h, t) ← clear h t
    .ok ((h, t, .done), 0)
  | .rehash => do
    let (t, c) ← Table.mayRehashC t
    .ok ((h, t, .done), c)
  | .rehashN n => do
    let (t, c) ← Table.doRehashC t (w32 n)
    .ok ((h, t, .done), c)

/-- A history, with the number of entries moved in total. -/
def runOpsC (hash : K → UInt32) (dflt : V) (h : Heap K V) (t : Table Nat) :
    List (TOp K V) → Res ((Heap K V × Table Nat × List (TRet V)) × Nat)
  | [] => .ok ((h, t, []), 0)
  | op :: ops => do
    let ((h, t, r), c) ← stepC hash dflt h t op
    let ((h, t, rs), c') ← runOpsC hash dflt h t ops
    .ok ((h, t, r :: rs), c + c')

end HashTable
end Eni
