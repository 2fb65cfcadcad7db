import Verif.Model.EniBase
/-!
# ENI types (include/eni/eni_types.h, lib/eni_types.cpp)

The integer types are Boost numbers of fixed width. What Boost does is taken from its documentation: an unsigned number of `w` bits holds the
values below 2^w, arithmetic and conversions are modulo 2^w (`unchecked`); `s256` has 256 bits of magnitude and a sign; streaming a number writes
its decimal digits.
-/
namespace Eni

/-- `u64`, `u128`, `u160` = `Address`, `u256` = `UInt` (eni_types.h 17-28, 33-34) for `w` = 64, 128, 160, 256: the stored magnitude. -/
structure UNum (w : Nat) where
  mag : Nat
  lt : mag < 2 ^ w

/-- Conversion of an integer to an unsigned number (constructor of the Boost type; `unchecked`, eni_types.h 17-28): modulo 2^w. -/
def UNum.ofInt (w : Nat) (z : Int) : UNum w := ⟨(z % (2 ^ w : Nat)).toNat, by
  have h : 0 < ((2 ^ w : Nat) : Int) := Int.natCast_pos.mpr (Nat.two_pow_pos w)
  have h1 := Int.emod_nonneg z (Int.ne_of_gt h)
  have h2 := Int.emod_lt_of_pos z h
  omega⟩

/-- `s256` = `Int` (eni_types.h 29, 32). -/
structure SNum where
  val : Int
  lt : val.natAbs < 2 ^ 256

/-- `eni::to_string` for the unsigned types (eni_types.cpp 12-16, 19-22). -/
def toStringU {w : Nat} (n : UNum w) : Bytes := Value.natDec n.mag

/-- `eni::to_string(eni::s256)` (eni_types.cpp 12-16, 23). -/
def toStringS (n : SNum) : Bytes := Value.s256Print n.val

/-- `eni::to_string(eni::Bool)` (eni_types.cpp 26-30). -/
def toStringB (b : Bool) : Bytes := if b then [116, 114, 117, 101] else [102, 97, 108, 115, 101]

/-- `toBoolean() const` (Value.h 50). -/
def Value.toBoolean : Value → Res Bool
  | .bool b => .ok b
  | _ => .ub .badUnion

end Eni
