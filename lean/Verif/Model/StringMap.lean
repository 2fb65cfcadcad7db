import Verif.Model.HashBase
import Verif.Model.HashTable
import Verif.Model.StringHasher
/-!
# `eni::StringHashTable` and `eni::StringMap` (include/eni/adt/StringHashTable.h, StringMap.h)

Entries are stored inline in the bucket instead of behind a pointer (pointer identity of entries is treated in Model/HashTable);
allocation is implicit. Keys are byte lists, values of any type.
-/
namespace Eni

/-- A `std::string` key. -/
abbrev Bytes := List UInt8

/-- `Entry<std::string, ValueType>` (StringHashTable.h 22-51): the whole key is copied into the flexible array `m_Key`, but its
length is kept in 16 bits (`uint16_t m_KeyLen`). -/
structure SEntry (V : Type) where
  raw : Bytes
  keyLen : Nat
  val : V
  deriving DecidableEq, Repr

namespace SEntry
variable {V : Type}

/-- The constructor `Entry(const key_type&)` (StringHashTable.h 30-33) followed by `setValue`. -/
def mk' (k : Bytes) (v : V) : SEntry V := ⟨k, k.length % 65536, v⟩

/-- `key()` (StringHashTable.h 35): `std::string(m_Key, m_KeyLen)`. -/
def key (e : SEntry V) : Bytes := e.raw.take e.keyLen

/-- `key()` never fails on an inline entry. -/
def keyO (e : SEntry V) : Option Bytes := some e.key

end SEntry

/-- A `StringMap<V>`: the underlying `HashTable` with `StringHasher<SDBM>` (StringMap.h 15-22). -/
abbrev SMap (V : Type) := Table (SEntry V)

namespace SMap
variable {V : Type}

/-- `StringMap(size_type pSize = 8)` (StringMap.h 42). -/
def new (size : Nat) : SMap V := Table.new size

/-- `super::insert(pKey, exist)` (bits/HashTable.tcc 114-142) with an inline entry. -/
def insert (m : SMap V) (k : Bytes) (v : V) : Res (SMap V × Nat × Bool) :=
  Table.insertE Hasher.sdbm SEntry.keyO m k (SEntry.mk' k v)

/-- Reading the entry in bucket `i`. -/
def entryAt (m : SMap V) (i : Nat) : Res (SEntry V) :=
  match m.buckets[i]? with
  | some ⟨_, .full e⟩ => .ok e
  | _ => .ub .nullDeref

/-- `m[k]` (StringMap.h 72-76, non-const): inserts a default value if the key is new; the value the reference denotes. -/
def index (dflt : V) (m : SMap V) (k : Bytes) : Res (SMap V × V) := do
  let (m', i, exist) ← insert m k dflt
  if exist then do
    let e ← entryAt m' i
    .ok (m', e.val)
  else .ok (m', dflt)

/-- `m[k] = v` (StringMap.h 72-76 and an assignment through the returned reference). A new entry gets `v` at once. -/
def assign (m : SMap V) (k : Bytes) (v : V) : Res (SMap V × Bool) := do
  let (m', i, exist) ← insert m k v
  if exist then
    match m'.buckets[i]? with
    | some ⟨h, .full e⟩ => .ok ({ m' with buckets := m'.buckets.set i ⟨h, .full { e with val := v }⟩ }, true)
    | _ => .ub .nullDeref
  else .ok (m', false)

/-- `find(k)`, `it->value()` (StringMap.h 37, bits/HashTable.tcc 167-186); `none` is `end()`. -/
def find (m : SMap V) (k : Bytes) : Res (Option V) := do
  match ← Table.findE Hasher.sdbm SEntry.keyO m k with
  | none => .ok none
  | some e => .ok (some e.val)

/-- `at(k)` (StringMap.h 58-70) and const `operator[]` (78-80). -/
def at_ (m : SMap V) (k : Bytes) : Res V := do
  match ← find m k with
  | none => .throw .invalidStringMapKey
  | some v => .ok v

/-- `erase(k)` (StringMap.h 36, bits/HashTable.tcc 147-162). -/
def erase (m : SMap V) (k : Bytes) : Res (SMap V × Bool) := do
  let (m, r) ← Table.eraseE Hasher.sdbm SEntry.keyO m k
  .ok (m, r.isSome)

/-- `size()` (StringMap.h 82). -/
def size (m : SMap V) : Nat := m.ne

/-- Copy constructor (StringMap.h 44, bits/HashTable.tcc 18-34); also the so-called move constructor (line 46), which passes its
named argument on as an lvalue and therefore copies. With inline entries the copy is structural: new entries are constructed from
`key()` and `value()`. -/
def copy (m : SMap V) : SMap V :=
  { m with init := true, buckets := m.buckets.map fun b => match b.slot with
    | .full e => { b with slot := .full (SEntry.mk' e.key e.val) }
    | _ => b }

/-- `operator=` (StringMap.h 50-56), both overloads: no return statement in a function returning a reference. -/
def assignMap (_dst _src : SMap V) : Res (SMap V) := .ub .noReturn

/-- The keys in iteration order with their values (`begin()` to `end()`, see C03). Not a function of the C++ code. -/
def bindings (m : SMap V) : List (Bytes × V) := m.entries.map fun e => (e.key, e.val)

end SMap

/-- Operations on a `StringMap`. -/
inductive SOp (V : Type) where
  | assign (k : Bytes) (v : V)    -- m[k] = v
  | index (k : Bytes)             -- m[k] (non-const), value read
  | at_ (k : Bytes)               -- m.at(k) or const m[k]
  | erase (k : Bytes)
  | find (k : Bytes)
  | size

/-- Reports: `val` a value read, `thrown` OutOfRange<InvalidStringMapKey>, ... -/
inductive SRet (V : Type) where
  | val (v : V)
  | thrown
  | erased (b : Bool)
  | found (v : Option V)
  | size (n : Nat)
  | done
  deriving DecidableEq

namespace SMap
variable {V : Type}

/-- One operation; the exception of `at` is caught by the caller and reported. -/
def step (dflt : V) (m : SMap V) : SOp V → Res (SMap V × SRet V)
  | .assign k v => do
    let (m, _) ← assign m k v
    .ok (m, .done)
  | .index k => do
    let (m, v) ← index dflt m k
    .ok (m, .val v)
  | .at_ k =>
    match at_ m k with
    | .ok v => .ok (m, .val v)
    | .throw .invalidStringMapKey => .ok (m, .thrown)
    | .throw e => .throw e
    | .ub u => .ub u
    | .diverge => .diverge
    | .exit c => .exit c
  | .erase k => do
    let (m, b) ← erase m k
    .ok (m, .erased b)
  | .find k => do
    let r ← find m k
    .ok (m, .found r)
  | .size => .ok (m, .size (size m))

def run (dflt : V) (m : SMap V) : List (SOp V) → Res (SMap V × List (SRet V))
  | [] => .ok (m, [])
  | op :: ops => do
    let (m, r) ← step dflt m op
    let (m, rs) ← run dflt m ops
    .ok (m, r :: rs)

end SMap
end Eni
