import Verif.Spec.OwnerCount
import Verif.Spec.Json
/-!
# What parsing should leave in memory

The tree that a JSON value should become, the JSON values whose parsing loses no heap objects, and how many the others lose.
-/
namespace Eni.Spec

/-- A member is added to an object given by keys and values; an existing member of that name is replaced. -/
def putMember (o : List Bytes × List Tree) (m : Bytes × Tree) : List Bytes × List Tree :=
  if m.1 ∈ o.1 then (o.1, o.2.set (o.1.idxOf m.1) m.2) else (o.1 ++ [m.1], o.2 ++ [m.2])

/-- Keys and values of an object written as a list of members. -/
def collect (ms : List (Bytes × Tree)) : List Bytes × List Tree := ms.foldl putMember ([], [])

mutual
/-- The tree of a JSON value. -/
def JV.tree : JV → Tree
  | .int z => .int z
  | .bool b => .bool b
  | .str s => .str s
  | .arr js => .arr (treesOf js)
  | .obj ms => .obj (collect (membersOf ms)).1 (collect (membersOf ms)).2
/-- The elements of an array. -/
def treesOf : List JV → List Tree
  | [] => []
  | j :: js => j.tree :: treesOf js
/-- The members of an object. -/
def membersOf : List (Bytes × JV) → List (Bytes × Tree)
  | [] => []
  | (k, j) :: ms => (k, j.tree) :: membersOf ms
end

/-- A boolean. -/
def JV.isBool : JV → Prop
  | .bool _ => True
  | _ => False

/-- No numbers, no arrays with elements other than booleans, and every member that is followed by another one of the same name is a boolean. -/
inductive Clean : JV → Prop
  | bool {b} : Clean (.bool b)
  | str {s} : Clean (.str s)
  | arr {js} : (∀ j ∈ js, j.isBool) → Clean (.arr js)
  | obj {ms} : (∀ k j, (k, j) ∈ ms → Clean j) → (∀ a k j b, ms = a ++ (k, j) :: b → k ∈ b.map Prod.fst → j.isBool) → Clean (.obj ms)

/-- The heap objects of a value that its destruction leaves allocated. -/
def Tree.kept (t : Tree) : Nat := t.cells - t.released

/-- The heap objects of the members that are followed by another member of the same name. -/
def overwritten : List (Bytes × Tree) → Nat
  | [] => 0
  | (k, x) :: ms => (if k ∈ ms.map Prod.fst then x.cells else 0) + overwritten ms

mutual
/-- Heap objects lost while a value is built. A number: the copy made for a parameter. An array or object: what its parts lose, members that are
overwritten, and three temporary copies of the whole. -/
def JV.lost : JV → Nat
  | .int _ => 1
  | .bool _ => 0
  | .str _ => 0
  | .arr js => lostElems js + 3 * (JV.arr js).tree.kept
  | .obj ms => lostMembers ms + overwritten (membersOf ms) + 3 * (JV.obj ms).tree.kept
/-- The elements of an array. -/
def lostElems : List JV → Nat
  | [] => 0
  | j :: js => j.lost + lostElems js
/-- The members of an object. -/
def lostMembers : List (Bytes × JV) → Nat
  | [] => 0
  | (_, j) :: ms => j.lost + lostMembers ms
end

end Eni.Spec
