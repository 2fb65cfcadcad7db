import Verif.Model.StringMap
/-!
# Hexadecimal notation
-/
namespace Eni.Spec.Hex

/-- Value of a hexadecimal digit, either case. -/
def digitVal (c : UInt8) : Option Nat :=
  if 48 ≤ c ∧ c ≤ 57 then some (c.toNat - 48)
  else if 97 ≤ c ∧ c ≤ 102 then some (c.toNat - 87)
  else if 65 ≤ c ∧ c ≤ 70 then some (c.toNat - 55)
  else none

/-- The bytes denoted by a string of an even number of digits. -/
def decode : Bytes → Option Bytes
  | [] => some []
  | [_] => none
  | a :: b :: r =>
    match digitVal a, digitVal b, decode r with
    | some x, some y, some t => some ((16 * x + y).toUInt8 :: t)
    | _, _, _ => none

/-- The digits `0123456789abcdef`. -/
def digits : Bytes := [48, 49, 50, 51, 52, 53, 54, 55, 56, 57, 97, 98, 99, 100, 101, 102]

/-- `t` is the lower-case notation of the bytes `b`. -/
inductive Encodes : Bytes → Bytes → Prop
  | nil : Encodes [] []
  | cons {x : UInt8} {b t : Bytes} {h l : UInt8} : digits[x.toNat / 16]? = some h → digits[x.toNat % 16]? = some l → Encodes b t →
      Encodes (x :: b) (h :: l :: t)

end Eni.Spec.Hex
