import Verif.Model.JsonValue
/-!
# Printing with the counter of `Array::print` (lib/json/Array.cpp 27-36)

`Value.print` ignores that the counter `int i` can overflow; here it can.
-/
namespace Eni
namespace Value

/-- `i++` of an `int` (Array.cpp 32). -/
def incInt (i : Int) : Res Int := if i + 1 < 2147483648 then .ok (i + 1) else .ub .overflow

/-- The loop of `Array::print` (Array.cpp 31-34): `if (i++) os << ','; e.print(os);`. -/
def elemsR (i : Int) : List (Res Bytes) → Res Bytes
  | [] => .ok []
  | e :: es => do
    let j ← incInt i
    let t ← e
    let ts ← elemsR j es
    .ok ((if i ≠ 0 then [44] else []) ++ t ++ ts)

/-- The loop of `Object::print` (Object.cpp 29-38). -/
def membersR (first : Bool) : List (Bytes × Res Bytes) → Res Bytes
  | [] => .ok []
  | (k, v) :: ms => do
    let t ← v
    let ts ← membersR false ms
    .ok ((if !first then [44] else []) ++ k ++ [58] ++ t ++ ts)

/-- `Value::print` (Value.cpp 124-161), `Array::print` (Array.cpp 27-36), `Object::print` (Object.cpp 26-41). -/
def printR : Value → Res Bytes
  | .undef => .ok []
  | .int z => .ok (s256Print z)
  | .bool true => .ok [116, 114, 117, 101]
  | .bool false => .ok [102, 97, 108, 115, 101]
  | .str s => .ok (printStr s)
  | .arr vs => do
    let t ← elemsR 0 (vs.attach.map fun ⟨v, _⟩ => printR v)
    .ok (91 :: t ++ [93])
  | .obj m => do
    let t ← membersR true (m.entries.attach.map fun ⟨e, _⟩ => (e.key, printR e.val))
    .ok ([123, 10] ++ t ++ [10, 125])
termination_by v => sizeOf v
decreasing_by
  · rename_i h
    have := List.sizeOf_lt_of_mem h
    simp
    omega
  · rename_i h
    have := sizeOf_entry h
    simp
    omega

end Value
end Eni
