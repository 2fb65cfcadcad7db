import Verif.Model.HashTable
/-!
# `eni::HashIterator` over several tables (include/eni/adt/HashIterator.h, bits/HashIterator.tcc)

Iterators with their table pointer. A table variable is designated by its number (see `World`); the constructors, copies, conversion to
`const` and assignment of iterators (HashIterator.h 52-55, 100-103, 143-164, 200-207; HashIterator.tcc 45-68, 158-181) copy all fields and
have no counterpart of their own here. `operator*` (HashIterator.h 179-180) calls a member that the implementations do not have: a program
that uses it does not compile.
-/
namespace Eni
open HashTable

/-- `EntryIterBase` (HashIterator.h 65-110): `m_pHashTable`, `m_Index`. -/
structure EIt where
  tab : Option Nat
  index : Nat
  deriving DecidableEq, Repr

/-- `ChainIterBase` (HashIterator.h 18-62). -/
structure CIt where
  tab : Option Nat
  index : Nat
  hash : UInt32
  endIndex : Nat
  deriving DecidableEq, Repr

/-- `EntryIterBase()`, `EntryIterBase::reset` (bits/HashIterator.tcc 158-162, 219-224), and `HashTable::end()` (bits/HashTable.tcc 234-240,
257-262), which is `iterator(NULL, 0)`. -/
def EIt.fin : EIt := ⟨none, 0⟩

/-- `ChainIterBase()`, `ChainIterBase::reset` (bits/HashIterator.tcc 11-14, 106-113), and `HashTable::end(key)` (bits/HashTable.tcc 273-278,
289-294), which ignores the key. -/
def CIt.fin : CIt := ⟨none, 0, 0, 0⟩

/-- `EntryIterBase::equals` (bits/HashIterator.tcc 241-245), `operator==` (HashIterator.h 166-168). -/
def EIt.equals (a b : EIt) : Bool := a.tab == b.tab && a.index == b.index

/-- `ChainIterBase::equals` (bits/HashIterator.tcc 144-155). -/
def CIt.equals (a b : CIt) : Bool :=
  if a.tab == b.tab then
    if a.tab == none then true
    else a.hash == b.hash && a.endIndex == b.endIndex && a.index == b.index
  else false

/-- The iterator over table `j` that stands for a position, `none` being the end. -/
def EIt.of (j : Nat) : EntryIter → EIt
  | none => .fin
  | some i => ⟨some j, i⟩

/-- likewise for chains -/
def CIt.of (j : Nat) : Option ChainIter → CIt
  | none => .fin
  | some c => ⟨some j, c.index, c.hash, c.endIndex⟩

namespace World
variable {K V : Type} [DecidableEq K]

/-- `t_j.find(k)` (bits/HashTable.tcc 167-186). -/
def find (hash : K → UInt32) (w : World K V) (j : Nat) (k : K) : Res EIt := do
  let t ← w.tab j
  let p ← findIter hash w.heap t k
  .ok (EIt.of j p)

/-- `t_j.begin()` (bits/HashTable.tcc 222-232, 243-254). -/
def beginIt (w : World K V) (j : Nat) : Res EIt := do
  let t ← w.tab j
  let p ← begin_ t
  .ok (EIt.of j p)

/-- `++it`, `it++` (HashIterator.h 185-197; bits/HashIterator.tcc 227-239). -/
def next (w : World K V) (it : EIt) : Res EIt :=
  match it.tab with
  | none => .throw .invalidIteratorEmpty
  | some j => do
    let t ← w.tab j
    let p ← advance t (some it.index)
    .ok (EIt.of j p)

/-- `it->key()`, `it->value()` (HashIterator.h 174-175; bits/HashIterator.tcc 200-217; HashBase.h 26-30). -/
def deref (w : World K V) (it : EIt) : Res (Cell K V) :=
  match it.tab with
  | none => .throw .invalidIteratorEmpty
  | some j => do
    let t ← w.tab j
    let e ← getEntry t (some it.index)
    match w.heap.cells e with
    | some c => .ok c
    | none => .ub .useAfterFree

/-- `t_j.begin(k)` (bits/HashTable.tcc 264-270, 280-286). -/
def chainBegin (hash : K → UInt32) (w : World K V) (j : Nat) (k : K) : Res CIt := do
  let t ← w.tab j
  let p ← HashTable.chainBegin hash w.heap.keyOf t k
  .ok (CIt.of j p)

/-- `++it` for chain iterators (bits/HashIterator.tcc 115-142): the end is left as it is. -/
def chainNext (w : World K V) (it : CIt) : Res CIt :=
  match it.tab with
  | none => .ok it
  | some j => do
    let t ← w.tab j
    let p ← chainAdvanceLoop t ⟨it.index, it.hash, it.endIndex⟩ (t.nb + 1) it.index
    .ok (CIt.of j p)

/-- `it->key()`, `it->value()` for chain iterators (bits/HashIterator.tcc 88-104; `getBucket`, 71-86, makes the same test). -/
def chainDeref (w : World K V) (it : CIt) : Res (Cell K V) :=
  match it.tab with
  | none => .throw .invalidIteratorEmpty
  | some j => do
    let t ← w.tab j
    let e ← getEntry t (some it.index)
    match w.heap.cells e with
    | some c => .ok c
    | none => .ub .useAfterFree

/-- A client: `n` increments. -/
def nexts (w : World K V) : Nat → EIt → Res EIt
  | 0, it => .ok it
  | n + 1, it => do
    let it' ← w.next it
    w.nexts n it'

/-- A client: `for (; !(it == t.end()); ++it) visit(it->key(), it->value())`. Fuel counts iterations. -/
def walk (w : World K V) : Nat → EIt → Res (List (Cell K V))
  | 0, it => if it.equals .fin then .ok [] else .diverge
  | fuel + 1, it =>
    if it.equals .fin then .ok []
    else do
      let c ← w.deref it
      let it' ← w.next it
      let cs ← w.walk fuel it'
      .ok (c :: cs)

/-- A client: `for (it = t.begin(k); !(it == t.end(k)); ++it) visit(it->key(), it->value())`. -/
def chainWalk (w : World K V) : Nat → CIt → Res (List (Cell K V))
  | 0, it => if it.equals .fin then .ok [] else .diverge
  | fuel + 1, it =>
    if it.equals .fin then .ok []
    else do
      let c ← w.chainDeref it
      let it' ← w.chainNext it
      let cs ← w.chainWalk fuel it'
      .ok (c :: cs)

end World
end Eni
