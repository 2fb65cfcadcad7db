import Verif.Spec.Owner
/-!
# How many heap objects programs on `json::Value` allocate, release and lose

Counted are the objects that values point to: integers, strings, arrays and objects, each allocated with `new`. The numbers are given for
trees, so they refer only to what the program's user sees.
-/
namespace Eni.Spec
open Owner
namespace Tree

mutual
/-- Number of heap objects that a value consists of. -/
def cells : Tree → Nat
  | .undef => 0
  | .bool _ => 0
  | .int _ => 1
  | .str _ => 1
  | .arr ts => 1 + cellsAll ts
  | .obj _ ts => 1 + cellsAll ts
/-- The same for lists. -/
def cellsAll : List Tree → Nat
  | [] => 0
  | t :: ts => t.cells + cellsAll ts
end

mutual
/-- Number of heap objects that are released when a value is destroyed: integers and the elements of arrays stay. -/
def released : Tree → Nat
  | .undef => 0
  | .bool _ => 0
  | .int _ => 0
  | .str _ => 1
  | .arr _ => 1
  | .obj _ ts => 1 + releasedAll ts
/-- The same for lists. -/
def releasedAll : List Tree → Nat
  | [] => 0
  | t :: ts => t.released + releasedAll ts
end

/-- `cells` of the part at a path (0 if there is none). -/
def cellsAt (t : Tree) (p : Path) : Nat :=
  match t.get p with
  | some x => x.cells
  | none => 0

/-- `released` of the part at a path (0 if there is none). -/
def releasedAt (t : Tree) (p : Path) : Nat :=
  match t.get p with
  | some x => x.released
  | none => 0

/-- `cells` of the last element of the array at a path. -/
def cellsLast (t : Tree) (p : Path) : Nat :=
  match t.get p with
  | some (.arr ts) =>
    match ts.getLast? with
    | some x => x.cells
    | none => 0
  | _ => 0

end Tree

open Tree

/-- Heap objects allocated by an operation on the variables `t`: every copy is a copy of everything. -/
def allocated (t : Tree) : Op → Nat
  | .undef | .bool _ | .move _ | .destroy _ | .eraseMember _ _ | .dropInt _ => 0
  | .int _ | .str _ | .array | .object | .delegateInt _ _ | .delegateArray _ | .delegateObject _ => 1
  | .copy src | .assign _ src | .pushBack _ src | .setMember _ _ src => t.cellsAt src
  | .popBack dst => t.cellsLast dst

/-- Heap objects released by an operation. -/
def releasedBy (t : Tree) : Op → Nat
  | .destroy i => t.releasedAt [.elem i]
  | .eraseMember dst k => t.releasedAt (dst ++ [.mem k])
  | .dropInt _ => 1
  | _ => 0

/-- A value of the tree is undefined. -/
def isUndef (t : Tree) (p : Path) : Bool :=
  match t.get p with
  | some .undef => true
  | _ => false

/-- Heap objects that an operation leaves allocated although no value refers to them any more. -/
def lostBy (t : Tree) : Op → Nat
  | .assign dst _ => t.cellsAt dst
  | .destroy i => t.cellsAt [.elem i] - t.releasedAt [.elem i]
  | .popBack dst => t.cellsLast dst
  | .setMember dst k _ => t.cellsAt (dst ++ [.mem k])
  | .eraseMember dst k => t.cellsAt (dst ++ [.mem k]) - t.releasedAt (dst ++ [.mem k])
  | .delegateInt dst _ | .delegateArray dst | .delegateObject dst => if isUndef t dst then 0 else 1
  | _ => 0

/-- A quantity summed over a program that starts with the variables `t`. -/
def total (f : Tree → Op → Nat) (t : Tree) : List Op → Nat
  | [] => 0
  | op :: ops =>
    match pstep t op with
    | some (t', _) => f t op + total f t' ops
    | none => 0

/-- Number of heap objects in use, including the frame with the variables. -/
def live (h : Owner.Heap) : Nat := (List.range h.next).countP fun q => (h.cell q).isSome

end Eni.Spec
