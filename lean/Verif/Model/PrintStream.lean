import Verif.Model.JsonValue
/-!
# Printing to a stream in any state (lib/json/Value.cpp 124-161, Array.cpp 27-36, Object.cpp 26-41)

`Value.print` is the text for a fresh stream. Here every `<<` of the code is one piece of output, and what it writes depends on the format of the
stream. What `<<` does for characters, strings and Boost's numbers is library behaviour, not code of /repo.
-/
namespace Eni.Ostream

/-- `std::ios_base::basefield`. -/
inductive Base where
  | dec | oct | hex
  deriving DecidableEq, Repr

def Base.radix : Base → Nat
  | .dec => 10
  | .oct => 8
  | .hex => 16

/-- A `std::ostream`: what was written, the flags that matter, and whether it is in a good state. -/
structure Stream where
  out : Bytes
  good : Bool
  base : Base
  showbase : Bool
  showpos : Bool
  upper : Bool
  width : Nat
  fill : UInt8
  left : Bool
  deriving Repr

/-- A new `std::ostringstream`. -/
def Stream.fresh : Stream := ⟨[], true, .dec, false, false, false, 0, 32, false⟩

/-- A digit. -/
def digit (up : Bool) (d : Nat) : UInt8 := if d < 10 then (48 + d).toUInt8 else if up then (55 + d).toUInt8 else (87 + d).toUInt8

/-- Digits of a number in a base, most significant first. -/
def radText (b : Base) (up : Bool) (n : Nat) : Bytes :=
  if n < b.radix then [digit up n] else radText b up (n / b.radix) ++ [digit up (n % b.radix)]
termination_by n
decreasing_by exact Nat.div_lt_self (by cases b <;> simp_all [Base.radix] <;> omega) (by cases b <;> decide)

/-- One `<<`: of a character, of a string, of a number. -/
inductive Out where
  | ch (c : UInt8)
  | txt (s : Bytes)
  | num (z : Int)

/-- `str` of Boost's `cpp_int`: a negative number in base 8 or 16 is an exception (`std::runtime_error`), here `none`. -/
def numText (st : Stream) (z : Int) : Option Bytes :=
  match st.base with
  | .dec => some (if st.showpos ∧ 0 ≤ z then 43 :: Value.s256Print z else Value.s256Print z)
  | .oct => if z < 0 then none else some ((if st.showbase then [48] else []) ++ radText .oct st.upper z.toNat)
  | .hex => if z < 0 then none else some ((if st.showbase then [48, if st.upper then 88 else 120] else []) ++ radText .hex st.upper z.toNat)

/-- Text before padding. -/
def outText (st : Stream) : Out → Option Bytes
  | .ch c => some [c]
  | .txt s => some s
  | .num z => numText st z

/-- Fills up to the width. -/
def pad (st : Stream) (t : Bytes) : Bytes :=
  if st.left then t ++ List.replicate (st.width - t.length) st.fill else List.replicate (st.width - t.length) st.fill ++ t

/-- `os << o`: formatted output, after which the width is zero. A stream in a bad state takes nothing. -/
def put (st : Stream) (o : Out) : Option Stream := do
  let t ← outText st o
  if st.good then some { st with out := st.out ++ pad st t, width := 0 } else some st

/-- A sequence of outputs; `false` if one of them is an exception. -/
def emit (st : Stream) : List Out → Stream × Bool
  | [] => (st, true)
  | o :: os =>
    match put st o with
    | none => (st, false)
    | some st => emit st os

/-- One character of a string (Value.cpp 138-147). -/
def charItems (c : UInt8) : List Out :=
  if c = 34 ∨ c = 92 then [.ch 92, .ch c]
  else if c < 32 then [.txt [92, 117], .txt [48, 48, Value.hexUp (c.toNat / 16), Value.hexUp (c.toNat % 16)]]
  else [.ch c]

/-- The loop of `Array::print` (Array.cpp 31-34). Simplified: `i` does not overflow (C106). -/
def elemItems (i : Nat) : List (List Out) → List Out
  | [] => []
  | e :: es => (if i ≠ 0 then [.ch 44] else []) ++ e ++ elemItems (i + 1) es

/-- The loop of `Object::print` (Object.cpp 31-38). -/
def memberItems (first : Bool) : List (Bytes × List Out) → List Out
  | [] => []
  | (k, v) :: ms => (if !first then [.ch 44] else []) ++ [.txt k] ++ [.ch 58] ++ v ++ memberItems false ms

/-- The outputs of `Value::print` (Value.cpp 124-161). -/
def items : Value → List Out
  | .undef => []
  | .int z => [.num z]
  | .bool true => [.txt [116, 114, 117, 101]]
  | .bool false => [.txt [102, 97, 108, 115, 101]]
  | .str s => .ch 34 :: s.flatMap charItems ++ [.ch 34]
  | .arr vs => .ch 91 :: elemItems 0 (vs.attach.map fun ⟨v, _⟩ => items v) ++ [.ch 93]
  | .obj m => [.ch 123, .ch 10] ++ memberItems true (m.entries.attach.map fun ⟨e, _⟩ => (e.key, items e.val)) ++ [.ch 10, .ch 125]
termination_by v => sizeOf v
decreasing_by
  · rename_i h
    have := List.sizeOf_lt_of_mem h
    simp
    omega
  · rename_i h
    have := Value.sizeOf_entry h
    simp
    omega

/-- `v.print(os)`; `false` if it ends with an exception. -/
def printTo (st : Stream) (v : Value) : Stream × Bool := emit st (items v)

end Eni.Ostream
