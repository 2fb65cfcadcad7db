import Verif.Spec.VectorSpec
/-!
# Specification of the capacity and of the memory of a `Vector`

Independent of the operations of the model: a history over two sequences and two numbers. An operation asks for room for a certain
number of elements; if this is more than the capacity it needs new memory, otherwise not. The capacity is the largest number of elements
that room was asked for since the vector was made or cleared.
-/
namespace Eni.Spec
variable {α : Type}

/-- The number of elements of `v` that an operation asks room for. -/
def need (s : List α × List α) : VOp α → Nat
  | .pushBack _ => s.1.length + 1
  | .insertN i n _ => if i ≤ s.1.length then s.1.length + n else 0
  | .insertRange i xs => if i ≤ s.1.length then s.1.length + xs.length else 0
  | .resize n => n
  | .resizeA n _ => n
  | .reserve n => n
  | .assignN n _ => n
  | .assignRange xs => xs.length
  | .assignVec => s.2.length
  | _ => 0

/-- The capacities of `v` and `w` after an operation that is carried out. -/
def caps (s : List α × List α) (c : Nat × Nat) : VOp α → Nat × Nat
  | .clear => (0, c.2)
  | .swap => (c.2, c.1)
  | .copy => (c.1, s.1.length)
  | op => (max c.1 (need s op), c.2)

/-- The sequences and the capacities of the two vectors. -/
abbrev CState (α : Type) : Type := (List α × List α) × (Nat × Nat)

/-- One operation with the answer `g` of the allocator: it is carried out unless it asks for more than the capacity and memory is
refused; then `BadAlloc<NoMemory>` is reported and nothing changes. -/
def cstep (dflt : α) (s : CState α) (op : VOp α) (g : Bool) : CState α × VRet α :=
  if need s.1 op ≤ s.2.1 ∨ g = true then (((vstep dflt s.1 op).1, caps s.1 s.2 op), (vstep dflt s.1 op).2)
  else (s, .exc .noMemory)

/-- A history. -/
def cruns (dflt : α) (s : CState α) : List (VOp α × Bool) → CState α × List (VRet α)
  | [] => (s, [])
  | (op, g) :: ops =>
    let r := cstep dflt s op g
    let q := cruns dflt r.1 ops
    (q.1, r.2 :: q.2)

/-- Every operation meets its precondition when its turn comes. -/
def CPres (sz : Nat) (dflt : α) (s : CState α) : List (VOp α × Bool) → Prop
  | [] => True
  | (op, g) :: ops => VPre sz s.1 op ∧ CPres sz dflt (cstep dflt s op g).1 ops

/-- The number of elements for which the vector really owns memory. -/
def room (v : Vec α) : Nat :=
  match v.data with
  | .buf cells => cells.length
  | _ => 0

/-- The memory is enough for the capacity, and less than twice as much (none for the capacity 0). -/
def Snug (v : Vec α) : Prop := v.capacity ≤ room v ∧ (0 < v.capacity → room v < 2 * v.capacity) ∧ (v.capacity = 0 → room v = 0)

end Eni.Spec
