import Verif.Model.JsonOwner
/-!
# Whole arrays and objects inside values (lib/json/Array.cpp 20-24, Object.cpp 19-23)

Programs as in Model/JsonOwner that also empty, resize and assign the arrays their values consist of.
-/
namespace Eni
namespace Owner

/-- Operations of a program. -/
inductive AOp where
  | base (op : Op)
  | clear (dst : Path)                -- dst.asArray().clear();
  | resize (dst : Path) (n : Nat)     -- dst.asArray().resize(n);
  | assignArray (dst src : Path)      -- dst.asArray() = src.asArray();
  | assignObject (dst src : Path)     -- dst.asObject() = src.asObject();
  deriving DecidableEq, Repr

/-- `v.asArray()` (Value.h 48) for the value named by a path: address and elements of the array. The accessor does not check the type. -/
def arrayAt (h : Heap) (path : Path) : Res (Nat × List Val) := do
  let l ← locate h frame path
  let v ← readAt h l
  if v.ty = .arr then
    match ← h.deref v.bits with
    | (p, .arr vs) => .ok (p, vs)
    | _ => .ub .badUnion
  else .ub .badUnion

/-- `v.asObject()` (Value.h 47). -/
def objectAt (h : Heap) (path : Path) : Res (Nat × List Bytes × List Val) := do
  let l ← locate h frame path
  let v ← readAt h l
  if v.ty = .obj then
    match ← h.deref v.bits with
    | (p, .obj ks vs) => .ok (p, ks, vs)
    | _ => .ub .badUnion
  else .ub .badUnion

/-- `Vector::resize(n)` (bits/Vector.tcc 103-116): new elements are assigned `Value()`, which sets their type only; elements beyond `n` are not destroyed.
Simplified: the union of a new element is uninitialised (it is what the slot held before if the capacity sufficed). -/
def resized (vs : List Val) (n : Nat) : List Val := vs.take n ++ List.replicate (n - vs.length) ⟨.undef, .raw⟩

/-- `std::copy(pFirst, pLast, m_Data)` (bits/Vector.tcc 219) from element `i` on, `n` elements: each is assigned with `Value::operator=`. -/
def assignElems (h : Heap) (p q i : Nat) : Nat → Res Heap
  | 0 => .ok h
  | n + 1 => do
    let s ← readAt h ⟨q, i⟩
    let h ← assignVal h ⟨p, i⟩ s
    assignElems h p q (i + 1) n

/-- One operation. -/
def stepA (h : Heap) : AOp → Res (Heap × Rep)
  | .base op => step h op
  | .clear dst => do        -- bits/Vector.tcc 360-369: the elements are not destroyed
    let (p, _) ← arrayAt h dst
    .ok (h.put p (.arr []), .done)
  | .resize dst n => do
    let (p, vs) ← arrayAt h dst
    .ok (h.put p (.arr (resized vs n)), .done)
  | .assignArray dst src => do   -- Array.cpp 20-24: `Vector::operator=` (bits/Vector.tcc 53-58, 215-220), then the type, which is ARRAY already
    let (p, vs) ← arrayAt h dst
    let (q, us) ← arrayAt h src
    let h ← assignElems (h.put p (.arr (resized vs us.length))) p q 0 us.length
    .ok (h, .done)
  | .assignObject dst src => do  -- Object.cpp 19-23 calls `StringMap::operator=` (StringMap.h 50-52), which does not return
    let _ ← objectAt h dst
    let _ ← objectAt h src
    .ub .noReturn

/-- A program. -/
def runA (h : Heap) : List AOp → Res (Heap × List Rep)
  | [] => .ok (h, [])
  | op :: ops => do
    let (h, r) ← stepA h op
    let (h, rs) ← runA h ops
    .ok (h, r :: rs)

end Owner
end Eni
