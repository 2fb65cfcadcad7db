import Verif.Model.StringMap
/-!
# The storage of a `StringMap` entry (include/eni/adt/StringHashTable.h 22-104)

Model/StringMap keeps the key of an entry as a list. Here an entry is the block of bytes that `malloc` returned. Offsets follow the usual
layout rules (Itanium C++ ABI, LP64, little endian): members in order of declaration at the next multiple of their alignment.
-/
namespace Eni
namespace StringEntry

/-- Size and alignment of `ValueType`. -/
structure Lay where
  vsize : Nat
  valign : Nat

/-- the next multiple of `a` -/
def roundUp (n a : Nat) : Nat := (n + a - 1) / a * a

/-- `offsetof(m_KeyLen)` (StringHashTable.h 48): a `uint16_t` behind `m_Value`. -/
def Lay.offLen (l : Lay) : Nat := roundUp l.vsize 2

/-- `offsetof(m_Key)` (StringHashTable.h 50): the flexible array of `char` behind `m_KeyLen`. -/
def Lay.offKey (l : Lay) : Nat := l.offLen + 2

/-- `sizeof(Entry<std::string, ValueType>)`. -/
def Lay.size (l : Lay) : Nat := roundUp l.offKey (max l.valign 2)

/-- A block of memory; `none` is a byte that was never written. -/
abbrev Block := List (Option UInt8)

/-- Stores bytes at an offset. -/
def write (b : Block) (off : Nat) (bs : Bytes) : Res Block :=
  if off + bs.length ≤ b.length then .ok (b.take off ++ bs.map some ++ b.drop (off + bs.length)) else .ub .outOfBounds

/-- Reads `n` bytes at an offset. -/
def read (b : Block) (off : Nat) : Nat → Res Bytes
  | 0 => .ok []
  | n + 1 =>
    match b[off]? with
    | none => .ub .outOfBounds
    | some none => .ub .uninit
    | some (some c) => do
      let cs ← read b (off + 1) n
      .ok (c :: cs)

/-- `MallocAllocator::allocate` (StringHashTable.h 91-94): the number of bytes is computed in 64 bits. -/
def allocate (l : Lay) (k : Bytes) : Block := List.replicate (w64 (l.size + k.length + 1)) none

/-- `Entry(const key_type&)` (StringHashTable.h 30-33), `new (entry) entry_type(pKey)` (bits/HashTable.tcc 132): `m_Value` is
default-initialised, which writes some of its bytes (`dflt`, given as offset and bytes; none for scalar types). -/
def construct (l : Lay) (dflt : List (Nat × Bytes)) (b : Block) (k : Bytes) : Res Block := do
  let b ← dflt.foldlM (fun b w => write b w.1 w.2) b
  let n := k.length % 65536
  let b ← write b l.offLen [(n % 256).toUInt8, (n / 256).toUInt8]
  let b ← write b l.offKey k
  write b (l.offKey + k.length) [0]

/-- `key()` (StringHashTable.h 35): `std::string(m_Key, m_KeyLen)`. -/
def key (l : Lay) (b : Block) : Res Bytes := do
  let n ← read b l.offLen 2
  match n with
  | [lo, hi] => read b l.offKey (lo.toNat + 256 * hi.toNat)
  | _ => .ub .outOfBounds

/-- Any later use of the value (`setValue`, a reference from `value()`): stores into its bytes. -/
def touch (b : Block) (ws : List (Nat × Bytes)) : Res Block := ws.foldlM (fun b w => write b w.1 w.2) b

/-- An entry with a key, used for a while, and its key read. -/
def entry (l : Lay) (dflt ws : List (Nat × Bytes)) (k : Bytes) : Res (Block × Bytes) := do
  let b ← construct l dflt (allocate l k) k
  let b ← touch b ws
  let k' ← key l b
  .ok (b, k')

end StringEntry
end Eni
