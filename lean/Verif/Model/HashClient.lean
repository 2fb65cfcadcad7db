import Verif.Model.HashTable
/-!
# Programs that use a hash table

Not code of /repo: loops a client writes with the iterators of include/eni/adt/HashIterator.h and the operations of
include/eni/adt/HashTable.h. Properties about iteration are stated with them.
-/
namespace Eni
namespace HashTable
variable {K V : Type} [DecidableEq K]

/-- conditional removal -/
def eraseIf (hash : K → UInt32) (c : Bool) (h : Heap K V) (t : Table Nat) (k : K) : Res (Heap K V × Table Nat × Bool) :=
  if c then erase hash h t k else .ok (h, t, false)

/-- A client that walks over the table and removes the entries that satisfy `p`:
`for (it = t.begin(); it != t.end(); ) { k = it->key(); ...; if (p) erase(k); }`, the increment before (`late = false`) or after
(`late = true`) the removal. Returns the visited entries in order. -/
def sweepFrom (hash : K → UInt32) (p : K → V → Bool) (late : Bool) : Nat → Heap K V → Table Nat → EntryIter →
    Res (Heap K V × Table Nat × List (K × V))
  | _, h, t, none => .ok (h, t, [])
  | 0, _, _, some _ => .diverge
  | fuel + 1, h, t, some i => do
    let e ← getEntry t (some i)
    match h.cells e with
    | none => .ub .useAfterFree
    | some c =>
      let before ← advance t (some i)
      let (h', t', _) ← eraseIf hash (p c.key c.val) h t c.key
      let after ← advance t' (some i)
      let (h'', t'', vs) ← sweepFrom hash p late fuel h' t' (if late then after else before)
      .ok (h'', t'', (c.key, c.val) :: vs)

/-- the whole walk -/
def sweep (hash : K → UInt32) (p : K → V → Bool) (late : Bool) (h : Heap K V) (t : Table Nat) :
    Res (Heap K V × Table Nat × List (K × V)) := do
  let it ← begin_ t
  sweepFrom hash p late t.nb h t it

end HashTable
end Eni
