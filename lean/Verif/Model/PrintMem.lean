import Verif.Model.JsonOwner
import Verif.Model.JsonValue
/-!
# Printing values in memory (lib/json/Value.cpp 124-161, Array.cpp 27-36, Object.cpp 26-41)

Model/JsonValue prints pure values. Here the printed value is a tag and a union that leads to heap cells (Model/JsonOwner).

An object in Model/JsonOwner has its members in order of insertion, whereas `Object::print` visits them in the order of the buckets of its
`StringMap`. That order is a parameter: `ord p` lists the positions of the members of the object at address `p` in the order of visits.
Simplified: the counter of `Array::print` does not overflow (see Model/PrintCount), the stream accepts everything.
-/
namespace Eni
namespace Owner

/-- The calls of `print` for the elements (Array.cpp 31-34). -/
def printEach (pr : Val → Res Bytes) : List Val → Res (List Bytes)
  | [] => .ok []
  | v :: vs => do
    let x ← pr v
    let xs ← printEach pr vs
    .ok (x :: xs)

/-- The visits of `Object::print` (Object.cpp 31-38). -/
def printVisits (pr : Val → Res Bytes) (ks : List Bytes) (vs : List Val) : List Nat → Res (List (Bytes × Bytes))
  | [] => .ok []
  | i :: is =>
    match ks[i]?, vs[i]? with
    | some k, some v => do
      let x ← pr v
      let xs ← printVisits pr ks vs is
      .ok ((k, x) :: xs)
    | _, _ => .ub .outOfBounds

/-- `Value::print` (Value.cpp 124-161) with `Array::print` and `Object::print`. The fuel bounds the recursion depth. -/
def printM (ord : Nat → List Nat) : Nat → Heap → Val → Res Bytes
  | 0, _, _ => .diverge
  | fuel + 1, h, v =>
    match v.ty with
    | .undef => .ok []
    | .bool =>
      match v.bits with
      | .bool b => .ok (if b then [116, 114, 117, 101] else [102, 97, 108, 115, 101])
      | _ => .ub .badUnion
    | .int => do
      match ← h.deref v.bits with
      | (_, .int z) => .ok (Value.s256Print z)
      | _ => .ub .badUnion
    | .str => do
      match ← h.deref v.bits with
      | (_, .str s) => .ok (Value.printStr s)
      | _ => .ub .badUnion
    | .arr => do
      match ← h.deref v.bits with
      | (_, .arr vs) => do
        let xs ← printEach (printM ord fuel h) vs
        .ok (91 :: Value.printElems 0 xs ++ [93])
      | _ => .ub .badUnion
    | .obj => do
      match ← h.deref v.bits with
      | (p, .obj ks vs) => do
        let ms ← printVisits (printM ord fuel h) ks vs (ord p)
        .ok ([123, 10] ++ Value.printMembers true ms ++ [10, 125])
      | _ => .ub .badUnion

/-- `v.print(os)` for the value at a place. -/
def printAt (ord : Nat → List Nat) (h : Heap) (l : Loc) : Res Bytes := do
  let v ← readAt h l
  printM ord h.fuel h v

end Owner
end Eni
