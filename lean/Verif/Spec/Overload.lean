import Verif.Model.Overload
/-! What a `Value` made from a C++ object should be (C120), and what a subscript should give (C121). -/
namespace Eni.Spec
open Cxx

/-- The JSON value that an argument stands for: objects of C++ types that JSON has no counterpart of have none. A pointer to characters stands for those
before the first NUL, a literal for all its characters. -/
def wanted : Arg → Option Value
  | .int .bool z => some (.bool (decide (z = 1)))
  | .int _ z => some (.int z)
  | .cptr (some m) => if 0 ∈ m then some (.str (m.takeWhile (· ≠ 0))) else none
  | .lit s => some (.str s)
  | .str s => some (.str s)
  | .s256 z => some (.int z)
  | .unum _ n => some (.int n)
  | .obj m => some (.obj (SMap.copy m))
  | .arr vs => some (.arr vs)
  | .val (.obj m) false => some (.obj (SMap.copy m))
  | .val v _ => some v
  | _ => none

/-- The argument has its type: numbers are in the range of their types. -/
def Typed : Arg → Prop
  | .int t z => t.range.1 ≤ z ∧ z ≤ t.range.2
  | .enum lo hi z => lo ≤ z ∧ z ≤ hi
  | .unum w n => n < 2 ^ w
  | _ => True

/-- C120 for one argument: if it compiles, there is a value that the argument stands for and this is the one made. -/
def Faithful (a : Arg) : Prop := ∀ r, make a = some r → ∃ v, wanted a = some v ∧ r = .ok v

/-- The arguments for which it is not so. -/
def Deceptive : Arg → Prop
  | .enum lo hi _ => -2147483648 ≤ lo ∧ hi ≤ 2147483647
  | .null => True
  | .cptr none => True
  | .cptr (some m) => 0 ∉ m
  | .lit s => 0 ∈ s
  | .ptr _ => True
  | _ => False

/-- The arguments that do not compile. -/
def Refused : Arg → Prop
  | .int t _ => t = .uint ∨ t = .long ∨ t = .ulong ∨ t = .llong ∨ t = .ullong
  | .float _ => True
  | .enum lo hi _ => lo < -2147483648 ∨ 2147483647 < hi
  | .enumClass _ => True
  | .unum w _ => 256 < w
  | _ => False

/-- What a subscript of an array with an integer should give. -/
def pick (vs : List Value) (z : Int) : Res Value :=
  if h : 0 ≤ z ∧ z < vs.length then .ok (vs[z.toNat]'(by omega)) else .throw .invalidVectorIndex

end Eni.Spec
