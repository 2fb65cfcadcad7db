import Verif.Spec.OwnerCount
import Verif.Model.OwnerArray
/-!
# What programs that assign whole arrays are expected to do

As Spec/Owner. Only `AOp` and `Rep` (the language of programs) are taken from the model.
-/
namespace Eni.Spec
open Owner

/-- Expected effect of one operation. To be avoided: `dst.asArray() = src.asArray()` where `dst` is a proper part of `src`, and every assignment of objects. -/
def apstep (t : Tree) : AOp → Option (Tree × Owner.Rep)
  | .base op => pstep t op
  | .clear dst => do
    if dst = [] then none else
    match ← t.get dst with
    | .arr _ => some (t.set (.arr []) dst, .done)
    | _ => none
  | .resize dst n => do
    if dst = [] then none else
    match ← t.get dst with
    | .arr ts => some (t.set (.arr (ts.take n ++ List.replicate (n - ts.length) .undef)) dst, .done)
    | _ => none
  | .assignArray dst src => do
    if dst = [] ∨ src = [] then none else
    match ← t.get dst, ← t.get src with
    | .arr _, .arr us => if src <+: dst ∧ src ≠ dst then none else some (t.set (.arr us) dst, .done)
    | _, _ => none
  | .assignObject _ _ => none

/-- Expected effect of a program. -/
def apruns (t : Tree) : List AOp → Option (Tree × List Owner.Rep)
  | [] => some (t, [])
  | op :: ops => do
    let (t, r) ← apstep t op
    let (t, rs) ← apruns t ops
    some (t, r :: rs)

/-- Heap objects that the elements of the array at a path consist of, from element `n` on (0 if there is no array). -/
def elemCells (t : Tree) (p : Path) (n : Nat) : Nat :=
  match t.get p with
  | some (.arr ts) => Tree.cellsAll (ts.drop n)
  | _ => 0

/-- Heap objects allocated by an operation on the variables `t`. -/
def allocatedA (t : Tree) : AOp → Nat
  | .base op => allocated t op
  | .assignArray _ src => elemCells t src 0
  | _ => 0

/-- Heap objects that an operation leaves allocated although no value refers to them any more. -/
def lostA (t : Tree) : AOp → Nat
  | .base op => lostBy t op
  | .clear dst => elemCells t dst 0
  | .resize dst n => elemCells t dst n
  | .assignArray dst _ => elemCells t dst 0
  | .assignObject _ _ => 0

/-- A quantity summed over a program that starts with the variables `t`. -/
def totalA (f : Tree → AOp → Nat) (t : Tree) : List AOp → Nat
  | [] => 0
  | op :: ops =>
    match apstep t op with
    | some (t', _) => f t op + totalA f t' ops
    | none => 0

end Eni.Spec
