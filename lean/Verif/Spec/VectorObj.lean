import Verif.Model.VectorObj
import Verif.Spec.VectorSpec
/-!
# Specification of a vector of objects
-/
namespace Eni.Spec
variable {α : Type}

/-- The corresponding operation on sequences. -/
def seqOp : OVec.Op α → VOp α
  | .pushBack a => .pushBack a
  | .emplaceBack a => .pushBack a
  | .popBack => .popBack
  | .insert i xs => .insertRange i xs
  | .erase f l => .erase f l
  | .resize n a => .resizeA n a
  | .reserve n => .reserve n
  | .assign xs => .assignRange xs
  | .clear => .clear
  | .at_ i => .at_ i

/-- Effect of a call on the sequence of elements. -/
def after (dflt : α) (xs : List α) (op : OVec.Op α) : List α := (vstep dflt (xs, []) (seqOp op)).1.1

/-- Report of a call. -/
def reported (dflt : α) (xs : List α) (op : OVec.Op α) : VRet α := (vstep dflt (xs, []) (seqOp op)).2

/-- Reports of a history. -/
def reports (dflt : α) : List α → List (OVec.Op α) → List (VRet α)
  | _, [] => []
  | xs, op :: ops => reported dflt xs op :: reports dflt (after dflt xs op) ops

/-- The sequence after a history. -/
def final (dflt : α) : List α → List (OVec.Op α) → List α
  | xs, [] => xs
  | xs, op :: ops => final dflt (after dflt xs op) ops

/-- Every call meets the precondition of the interface and the size limit. -/
def OPres (sz : Nat) (dflt : α) : List α → List (OVec.Op α) → Prop
  | _, [] => True
  | xs, op :: ops => VPre sz (xs, []) (seqOp op) ∧ OPres sz dflt (after dflt xs op) ops

/-- The vector never has more elements than `r`, the number it was constructed with (0 after `clear`). -/
def NeverAbove (dflt : α) : Nat → List α → List (OVec.Op α) → Prop
  | _, _, [] => True
  | r, xs, op :: ops =>
    (after dflt xs op).length ≤ r ∧ NeverAbove dflt (match op with | .clear => 0 | _ => r) (after dflt xs op) ops

/-- Number of calls of `emplace_back`. -/
def emplaced : List (OVec.Op α) → Nat
  | [] => 0
  | .emplaceBack _ :: ops => emplaced ops + 1
  | _ :: ops => emplaced ops

/-- What a caller sees of the elements: `size()` and `at(i)` for every index. -/
def SeenElems (c : OCls α) (v : OVec α) (xs : List α) : Prop :=
  v.size = xs.length ∧ ∀ i, OVec.at_ c v i = .ok (match xs[i]? with | some a => .val a | none => .exc .invalidVectorIndex)

end Eni.Spec
