import Verif.Model.EniBase
/-!
# What the JSON tests send (test/jsontests/__init__.py 14-17)

`eni_xx` calls `eni_run` with `json.dumps(input)`. `json.dumps` is a part of Python.
-/
namespace Eni.PyJson

/-- An element of the list `input`. Simplified: no lists or dictionaries inside, which the tests do not use; a string has no surrogates. -/
inductive Atom
  | int (z : Int)
  | bool (b : Bool)
  | str (s : List Char)

/-- A digit of `'{:04x}'`. -/
def hexLow (d : Nat) : UInt8 := if d < 10 then (48 + d).toUInt8 else (87 + d).toUInt8

/-- `'\\u{0:04x}'.format(n)` -/
def esc4 (n : Nat) : Bytes := [92, 117, hexLow (n / 4096 % 16), hexLow (n / 256 % 16), hexLow (n / 16 % 16), hexLow (n % 16)]

/-- One character in `py_encode_basestring_ascii` of Python's json/encoder.py, used by `json.dumps` (jsontests/__init__.py 15). -/
def dumpChar (c : Char) : Bytes :=
  let n := c.toNat
  if n = 34 then [92, 34]
  else if n = 92 then [92, 92]
  else if n = 10 then [92, 110]
  else if n = 13 then [92, 114]
  else if n = 9 then [92, 116]
  else if n = 12 then [92, 102]
  else if n = 8 then [92, 98]
  else if 32 ≤ n ∧ n ≤ 126 then [n.toUInt8]
  else if n < 0x10000 then esc4 n
  else esc4 (0xd800 + (n - 0x10000) / 1024) ++ esc4 (0xdc00 + (n - 0x10000) % 1024)

/-- `json.dumps` of a string (jsontests/__init__.py 15). -/
def dumpStr (s : List Char) : Bytes := 34 :: (s.flatMap dumpChar ++ [34])

/-- `json.dumps` of an element; the decimal digits are those of Model/JsonValue. -/
def dumpAtom : Atom → Bytes
  | .int z => Value.s256Print z
  | .bool true => [116, 114, 117, 101]
  | .bool false => [102, 97, 108, 115, 101]
  | .str s => dumpStr s

/-- The elements with `', '` between them. -/
def dumpElems : List Atom → Bytes
  | [] => []
  | [a] => dumpAtom a
  | a :: as => dumpAtom a ++ 44 :: 32 :: dumpElems as

/-- `json.dumps(input)` (jsontests/__init__.py 15). -/
def dumps (as : List Atom) : Bytes := 91 :: (dumpElems as ++ [93])

end Eni.PyJson
