import Verif.Model.JsonOwner
/-!
# What programs on `json::Value` are expected to do

Values are trees; every variable holds its own tree. `pstep` gives no result (`none`) for an operation that a program must not perform:
a place that does not exist, a value of another type, or one of the aliasing situations described at `pstep`.
Only `Op`, `Rep`, `Step` (the language of programs) are taken from the model.
-/
namespace Eni.Spec
open Owner

/-- A JSON value as its user thinks of it (with undefined values). -/
inductive Tree where
  | undef
  | int (z : Int)
  | bool (b : Bool)
  | str (s : Bytes)
  | arr (ts : List Tree)
  | obj (ks : List Bytes) (ts : List Tree)

namespace Tree

/-- Direct parts of a tree. -/
def kids : Tree → List Tree
  | .arr ts => ts
  | .obj _ ts => ts
  | _ => []

/-- The same array or object with other parts. -/
def withKids : Tree → List Tree → Tree
  | .arr _, ts => .arr ts
  | .obj ks _, ts => .obj ks ts
  | t, _ => t

/-- Number of the part that a step leads to. -/
def pos : Tree → Step → Option Nat
  | .arr ts, .elem i => if i < ts.length then some i else none
  | .obj ks _, .mem k => if k ∈ ks then some (ks.idxOf k) else none
  | _, _ => none

/-- The part at a path. -/
def get (t : Tree) : Path → Option Tree
  | [] => some t
  | s :: ps => do
    let i ← t.pos s
    let u ← t.kids[i]?
    u.get ps

/-- The tree with the part at a path replaced. -/
def set (t : Tree) (x : Tree) : Path → Tree
  | [] => x
  | s :: ps =>
    match t.pos s with
    | none => t
    | some i =>
      match t.kids[i]? with
      | none => t
      | some u => t.withKids (t.kids.set i (u.set x ps))

/-- Trees without numbers and arrays. -/
inductive Light : Tree → Prop
  | undef : Light .undef
  | bool {b} : Light (.bool b)
  | str {s} : Light (.str s)
  | obj {ks ts} : (∀ t ∈ ts, Light t) → Light (.obj ks ts)

/-- The variables are the elements of an array; a new variable is added at the end. -/
def declare (t x : Tree) : Tree := t.withKids (t.kids ++ [x])

end Tree

open Tree in
/-- Expected effect of an operation on the variables `t` (an array tree).

Aliasing situations that a program must avoid:
* `dst = src` where `dst` is a proper part of `src`,
* `dst.asArray().push_back(src)` where `src` is `dst`, contains `dst`, or is an element of `dst`,
* `dst.asObject()[k] = src` where `src` is `dst` or contains `dst`. -/
def pstep (t : Tree) : Op → Option (Tree × Owner.Rep)
  | .undef => some (t.declare .undef, .done)
  | .bool b => some (t.declare (.bool b), .done)
  | .int z => some (t.declare (.int z), .done)
  | .str s => some (t.declare (.str s), .done)
  | .array => some (t.declare (.arr []), .done)
  | .object => some (t.declare (.obj [] []), .done)
  | .copy src => do
    if src = [] then none else
    let x ← t.get src
    some (t.declare x, .done)
  | .move src => do
    if src = [] then none else
    let x ← t.get src
    some ((t.set .undef src).declare x, .done)
  | .assign dst src => do
    if dst = [] ∨ src = [] then none else
    let _ ← t.get dst
    let x ← t.get src
    if src <+: dst ∧ src ≠ dst then none else
    some (t.set x dst, .done)
  | .destroy i => do
    let _ ← t.get [.elem i]
    some (t.set .undef [.elem i], .done)
  | .pushBack dst src => do
    if dst = [] ∨ src = [] then none else
    let d ← t.get dst
    let x ← t.get src
    match d with
    | .arr ts => if src <+: dst ∨ ∃ i < ts.length, src = dst ++ [.elem i] then none else some (t.set (.arr (ts ++ [x])) dst, .done)
    | _ => none
  | .popBack dst => do
    if dst = [] then none else
    match ← t.get dst with
    | .arr ts =>
      match ts.getLast? with
      | none => none
      | some x => some ((t.set (.arr ts.dropLast) dst).declare x, .done)
    | _ => none
  | .setMember dst k src => do
    if dst = [] ∨ src = [] then none else
    let d ← t.get dst
    let x ← t.get src
    if src <+: dst then none else
    match d with
    | .obj ks ts =>
      if k ∈ ks then some (t.set (.obj ks (ts.set (ks.idxOf k) x)) dst, .done)
      else some (t.set (.obj (ks ++ [k]) (ts ++ [x])) dst, .done)
    | _ => none
  | .eraseMember dst k => do
    if dst = [] then none else
    match ← t.get dst with
    | .obj ks ts =>
      if k ∈ ks then some (t.set (.obj (ks.eraseIdx (ks.idxOf k)) (ts.eraseIdx (ks.idxOf k))) dst, .erased true)
      else some (t, .erased false)
    | _ => none
  | .delegateInt dst z => delegated t dst (.int z)
  | .delegateArray dst => delegated t dst (.arr [])
  | .delegateObject dst => delegated t dst (.obj [] [])
  | .dropInt i => do
    match ← t.get [.elem i] with
    | .int _ => some (t.set .undef [.elem i], .done)
    | _ => none
where
  /-- Delegation succeeds on an undefined value; otherwise it is refused and changes nothing. -/
  delegated (t : Tree) (dst : Path) (x : Tree) : Option (Tree × Owner.Rep) := do
    if dst = [] then none else
    match ← t.get dst with
    | .undef => some (t.set x dst, .done)
    | _ => some (t, .threw)

/-- Expected effect of a program. -/
def pruns (t : Tree) : List Op → Option (Tree × List Owner.Rep)
  | [] => some (t, [])
  | op :: ops => do
    let (t, r) ← pstep t op
    let (t, rs) ← pruns t ops
    some (t, r :: rs)

mutual
/-- `Holds h v t l`: in heap `h` the value `v` stands for the tree `t`, and the heap cells it consists of are `l`. -/
inductive Holds (h : Owner.Heap) : Val → Tree → List Nat → Prop
  | undef {b} : Holds h ⟨.undef, b⟩ .undef []
  | bool {b} : Holds h ⟨.bool, .bool b⟩ (.bool b) []
  | int {p z} : h.cell p = some (.int z) → Holds h ⟨.int, .ptr p⟩ (.int z) [p]
  | str {p s} : h.cell p = some (.str s) → Holds h ⟨.str, .ptr p⟩ (.str s) [p]
  | arr {p vs ts l} : h.cell p = some (.arr vs) → HoldsAll h vs ts l → Holds h ⟨.arr, .ptr p⟩ (.arr ts) (p :: l)
  | obj {p ks vs ts l} : h.cell p = some (.obj ks vs) → ks.length = ts.length → HoldsAll h vs ts l →
      Holds h ⟨.obj, .ptr p⟩ (.obj ks ts) (p :: l)

/-- The same for lists. -/
inductive HoldsAll (h : Owner.Heap) : List Val → List Tree → List Nat → Prop
  | nil : HoldsAll h [] [] []
  | cons {v t l vs ts ls} : Holds h v t l → HoldsAll h vs ts ls → HoldsAll h (v :: vs) (t :: ts) (l ++ ls)
end

end Eni.Spec
