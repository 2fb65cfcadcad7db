import Verif.Model.StringMap
/-!
# `json::Value`, `json::Array`, `json::Object` (include/eni/json/*.h, lib/json/*.cpp)

Contents, subscripts and printing. Storage ownership is modelled separately (Model/JsonOwner).
-/
namespace Eni

/-- `json::Value` (Value.h 23-85, Type.h 12-19): the tag and the active member of the union.
Simplified: an `Array` (a `Vector<Value>`, Array.h 18) is the list of its elements, i.e. the vector operations used by the JSON code
(copying, `push_back`, `at`, iteration) are taken at their specification, which Props/Vector proves for trivially copyable elements.
An `Object` (a `StringMap<Value>`, Object.h 16) is the modelled hash table itself. -/
inductive Value where
  | undef
  | int (z : Int)
  | bool (b : Bool)
  | str (s : Bytes)
  | arr (vs : List Value)
  | obj (m : Table (SEntry Value))

namespace Value

/-- `static Value g_NullValue(UNDEF)` (Value.cpp 17). `UNDEF` is an enumerator (value 5) of the unscoped enumeration `Type`; there is
no constructor from `Type` (the one of `Notation` is not inherited), so overload resolution picks `Value(int)` (Value.h 31) by
integral promotion, which beats the conversion to `bool`: the "null value" is the integer 5. -/
def nullValue : Value := .int 5

/-- `operator[](const std::string&) const` (Value.cpp 198-204); the const `operator[]` of `StringMap` is `at`. -/
def index (v : Value) (k : Bytes) : Res Value :=
  match v with
  | .obj m => SMap.at_ m k
  | _ => .ok nullValue

/-- `operator[](int) const` (Value.cpp 206-212, Array.h 29): `at` receives the `int` converted to `size_t`. -/
def indexInt (v : Value) (i : Int) : Res Value :=
  match v with
  | .arr vs =>
    match vs[(i % 18446744073709551616).toNat]? with
    | some e => .ok e
    | none => .throw .invalidVectorIndex
  | _ => .ok nullValue

/-! ### Integers -/

/-- One decimal digit consumed by the string constructor of `boost::multiprecision::int256_t` (used by Callbacks.h 39): the magnitude is
kept in 256 bits, unchecked, so it is reduced modulo 2^256. Library behaviour, not code of /repo. -/
def s256Digit (a : Nat) (c : UInt8) : Nat := (a * 10 + (c.toNat - 48)) % 2 ^ 256

/-- `eni::s256 i(s)` (Callbacks.h 39, eni_types.h 29) for a text `-?[0-9]+` that has no superfluous leading zeros (a leading zero would
select octal). Sign and magnitude; there is no negative zero. Library behaviour, not code of /repo. -/
def s256OfText : Bytes → Int
  | 45 :: ds => -(ds.foldl s256Digit 0 : Nat)
  | ds => (ds.foldl s256Digit 0 : Nat)

/-- Decimal digits of a number, most significant first. -/
def natDec (n : Nat) : Bytes :=
  if n < 10 then [(48 + n).toUInt8] else natDec (n / 10) ++ [(48 + n % 10).toUInt8]

/-- `os << s256` (Value.cpp 128) and `to_string(s256)` (lib/eni_types.cpp 13-16): decimal with a minus sign for negative numbers.
Library behaviour, not code of /repo. -/
def s256Print (z : Int) : Bytes := if z < 0 then 45 :: natDec z.natAbs else natDec z.natAbs

/-! ### Printing -/

/-- An upper-case hexadecimal digit as printed by `%X`. -/
def hexUp (n : Nat) : UInt8 := if n < 10 then (48 + n).toUInt8 else (55 + n).toUInt8

/-- One character of a string literal (Value.cpp 137-147). `char` is signed: `0 <= *c && *c < 0x20` means a byte below 32. `%04X` of
such a byte gives `00` and two digits. -/
def printChar (c : UInt8) : Bytes :=
  if c = 34 ∨ c = 92 then [92, c]
  else if c < 32 then [92, 117, 48, 48, hexUp (c.toNat / 16), hexUp (c.toNat % 16)]
  else [c]

/-- Case `STRING` of `print` (Value.cpp 133-151). -/
def printStr (s : Bytes) : Bytes := 34 :: s.flatMap printChar ++ [34]

/-- The loop of `Array::print` (Array.cpp 31-34): `i` is zero only for the first element. Simplified: `i` does not overflow. -/
def printElems (i : Nat) : List Bytes → Bytes
  | [] => []
  | e :: es => (if i ≠ 0 then [44] else []) ++ e ++ printElems (i + 1) es

/-- The loop of `Object::print` (Object.cpp 29-38). -/
def printMembers (first : Bool) : List (Bytes × Bytes) → Bytes
  | [] => []
  | (k, v) :: ms => (if !first then [44] else []) ++ k ++ [58] ++ v ++ printMembers false ms

theorem sizeOf_entry {e : SEntry Value} {m : Table (SEntry Value)} (h : e ∈ m.entries) : sizeOf e.val < sizeOf m := by
  obtain ⟨i, bs, nb, ne, nt⟩ := m
  simp only [Table.entries, List.mem_filterMap] at h
  obtain ⟨b, hb, hs⟩ := h
  have h1 := List.sizeOf_lt_of_mem hb
  have h2 : sizeOf e < sizeOf b := by
    obtain ⟨hh, s⟩ := b
    cases s with
    | full e' =>
      simp at hs
      subst hs
      simp
      omega
    | empty => simp at hs
    | tomb => simp at hs
  have h3 : sizeOf e.val < sizeOf e := by
    obtain ⟨a, b, c⟩ := e
    simp
    omega
  simp
  omega

/-- `Value::print` (Value.cpp 124-161), `Array::print` (Array.cpp 27-36), `Object::print` (Object.cpp 26-41). Keys are printed as they
are, without quotes; members come in bucket order (`Table.entries` is what the iterator visits, C03). -/
def print : Value → Bytes
  | .undef => []
  | .int z => s256Print z
  | .bool true => [116, 114, 117, 101]
  | .bool false => [102, 97, 108, 115, 101]
  | .str s => printStr s
  | .arr vs => 91 :: printElems 0 (vs.attach.map fun ⟨v, _⟩ => print v) ++ [93]
  | .obj m => [123, 10] ++ printMembers true (m.entries.attach.map fun ⟨e, _⟩ => (e.key, print e.val)) ++ [10, 125]
termination_by v => sizeOf v
decreasing_by
  · rename_i h
    have := List.sizeOf_lt_of_mem h
    simp
    omega
  · rename_i h
    have := sizeOf_entry h
    simp
    omega

end Value
end Eni
