import Verif.Model.JsonParser
/-!
# The work done by looking for the bucket of a key

The functions of Model/HashBase, Model/StringMap and Model/JsonParser that store a member in an object, with a count of the buckets that are looked at. That
the results are otherwise unchanged is `C107_same`. Not counted: finding a free bucket for the entries that `mayRehash` moves (their number is the subject of
Model/HashCost).
-/
namespace Eni
namespace Table
variable {E K : Type}

/-- `lookupLoop` (bits/HashBase.tcc 168-195), counting the iterations: each looks at one bucket. -/
def lookupLoopP [DecidableEq K] (keyOf : E → Option K) (bs : List (Bucket E)) (nb : Nat) (h : UInt32) (k : K) :
    Nat → Nat → Option Nat → Res ((List (Bucket E) × Nat) × Nat)
  | 0, _, _ => .diverge
  | fuel + 1, i, ft =>
    match bs[i]? with
    | none => .ub .outOfBounds
    | some b =>
      match b.slot with
      | .empty =>
        match ft with
        | some j =>
          if j < 2147483648 then
            match bs[j]? with
            | some bj => .ok ((bs.set j { bj with hash := h }, j), 1)
            | none => .ub .outOfBounds
          else .ub .outOfBounds
        | none => .ok ((bs.set i { b with hash := h }, i), 1)
      | .tomb => do
        let (r, c) ← lookupLoopP keyOf bs nb h k fuel (nextIdx nb i) (match ft with | none => some i | some j => some j)
        .ok (r, c + 1)
      | .full e =>
        if b.hash = h then
          match keyOf e with
          | none => .ub .useAfterFree
          | some k' =>
            if k' = k then .ok ((bs, i), 1)
            else do
              let (r, c) ← lookupLoopP keyOf bs nb h k fuel (nextIdx nb i) ft
              .ok (r, c + 1)
        else do
          let (r, c) ← lookupLoopP keyOf bs nb h k fuel (nextIdx nb i) ft
          .ok (r, c + 1)

/-- `lookupBucketFor` (bits/HashBase.tcc 154-196) with the count. -/
def lookupBucketForP [DecidableEq K] (hash : K → UInt32) (keyOf : E → Option K) (t : Table E) (k : K) : Res ((Table E × Nat) × Nat) :=
  let t := if t.init = false then initTable 16 else t
  if t.nb = 0 then .ub .divZero
  else do
    let ((bs, i), c) ← lookupLoopP keyOf t.buckets t.nb (hash k) k (t.nb + 1) ((hash k).toNat % t.nb) none
    .ok (({ t with buckets := bs }, i), c)

/-- `insertE` (bits/HashTable.tcc 114-142) with the count. -/
def insertCnt [DecidableEq K] (hash : K → UInt32) (keyOf : E → Option K) (t : Table E) (k : K) (mk : E) : Res ((Table E × Nat × Bool) × Nat) := do
  let ((t, i), c) ← lookupBucketForP hash keyOf t k
  match t.buckets[i]? with
  | none => .ub .outOfBounds
  | some b =>
    match b.slot with
    | .full _ => .ok ((t, i, true), c)
    | s =>
      let nt := match s with
        | .tomb => sub32 t.nt 1
        | _ => t.nt
      let t' ← mayRehash { t with buckets := t.buckets.set i { b with slot := .full mk },
                                  nt := nt, ne := w32 (t.ne + 1) }
      .ok ((t', i, false), c)

end Table

namespace SMap
variable {V : Type}

/-- `m[k] = v` (StringMap.h 72-76) with the count. -/
def assignP (m : SMap V) (k : Bytes) (v : V) : Res ((SMap V × Bool) × Nat) := do
  let ((m', i, exist), c) ← Table.insertCnt Hasher.sdbm SEntry.keyO m k (SEntry.mk' k v)
  if exist then
    match m'.buckets[i]? with
    | some ⟨h, .full e⟩ => .ok (({ m' with buckets := m'.buckets.set i ⟨h, .full { e with val := v }⟩ }, true), c)
    | _ => .ub .nullDeref
  else .ok ((m', false), c)

end SMap

namespace Json

/-- `set_parent` (Callbacks.h 80-93) with the count. -/
def setParentP (cb : CbState) (v : Value) : Res (CbState × Nat) :=
  match cb.stack with
  | [] => .ok ({ cb with root := v }, 0)
  | (.obj m, key) :: rest => do
    let ((m, _), c) ← SMap.assignP m key v
    .ok ({ cb with stack := (.obj m, key) :: rest }, c)
  | (.arr vs, key) :: rest => .ok ({ cb with stack := (.arr (vs ++ [v]), key) :: rest }, 0)
  | _ :: _ => .ok (cb, 0)

/-- The callbacks (Callbacks.h 31-77; see `cbStep`) with the count. -/
def cbStepP (cb : CbState) : Ev → Res (CbState × Nat)
  | .boolean b => setParentP cb (.bool b)
  | .number s => setParentP cb (.int (Value.s256OfText s))
  | .string s true =>
    match cb.stack with
    | [] => .ub .outOfBounds
    | (v, _) :: rest => .ok ({ cb with stack := (v, s) :: rest }, 0)
  | .string s false => setParentP cb (.str s)
  | .beginArray => .ok ({ cb with stack := (.arr [], []) :: cb.stack }, 0)
  | .beginObject => .ok ({ cb with stack := (.obj (SMap.new 8), []) :: cb.stack }, 0)
  | .endArray | .endObject =>
    match cb.stack with
    | [] => .ub .outOfBounds
    | (v, _) :: rest => setParentP { cb with stack := rest } (copyTop v)

/-- The callback invocations in order, with the count. -/
def cbRunP (cb : CbState) : List Ev → Res (CbState × Nat)
  | [] => .ok (cb, 0)
  | e :: es => do
    let (cb, c) ← cbStepP cb e
    let (cb, c') ← cbRunP cb es
    .ok (cb, c + c')

/-- `Parser(const std::string&)` (Parser.h 44-54; see `parse`) with the count. -/
def parseP (L : Layout) (s : Bytes) : Res (Parsed × Nat) :=
  match parseValue L (s.length + 1) ⟨s, []⟩ with
  | .ok _ st => do
    let (cb, c) ← cbRunP .init st.ev
    .ok (⟨true, cb.root⟩, c)
  | .err _ st => do
    let (cb, c) ← cbRunP .init st.ev
    .ok (⟨false, cb.root⟩, c)
  | .ub u => .ub u
  | .diverge => .diverge

end Json
end Eni
