import Verif.Model.OwnerArray
/-!
# Values used through their base class (include/eni/json/Notation.h 15-46, lib/json/Notation.cpp)

`Notation` is a public base of `Value` (Value.h 23) with public constructors and assignments, which copy or move the type without the contents. Programs as
in Model/OwnerArray that also do this.
-/
namespace Eni
namespace Owner

/-- Operations of a program. -/
inductive NOp where
  | base (op : AOp)
  | copyKind (dst src : Path)   -- static_cast<Notation&>(dst) = src;
  | moveKind (dst src : Path)   -- static_cast<Notation&>(dst) = std::move(src);
  | takeKind (src : Path)       -- Notation n(std::move(src));
  deriving DecidableEq, Repr

/-- One operation. -/
def stepN (h : Heap) : NOp → Res (Heap × Rep)
  | .base op => stepA h op
  | .copyKind dst src => do   -- Notation.cpp 29-33
    let d ← locate h frame dst
    let l ← locate h frame src
    let s ← readAt h l
    let v ← readAt h d
    let h ← writeAt h d ⟨s.ty, v.bits⟩
    .ok (h, .done)
  | .moveKind dst src => do   -- Notation.cpp 35-42
    let d ← locate h frame dst
    let l ← locate h frame src
    let s ← readAt h l
    let v ← readAt h d
    if d = l then .ok (h, .done)
    else do
      let h ← writeAt h d ⟨s.ty, v.bits⟩
      let s ← readAt h l
      let h ← writeAt h l ⟨.undef, s.bits⟩
      .ok (h, .done)
  | .takeKind src => do       -- Notation.cpp 23-27
    let l ← locate h frame src
    let s ← readAt h l
    let h ← writeAt h l ⟨.undef, s.bits⟩
    .ok (h, .done)

/-- A program. -/
def runN (h : Heap) : List NOp → Res (Heap × List Rep)
  | [] => .ok (h, [])
  | op :: ops => do
    let (h, r) ← stepN h op
    let (h, rs) ← runN h ops
    .ok (h, r :: rs)

end Owner
end Eni
