import Verif.Spec.Owner
import Verif.Model.PrintMem
/-!
# The texts of a tree
-/
namespace Eni.Spec
open Owner

mutual
/-- `Shown t x`: `x` is a text of the tree `t`. Numbers and strings are as in C28 and C26, an undefined value has no characters, the members
of an object are in any order and the keys are not quoted. -/
inductive Shown : Tree → Bytes → Prop
  | undef : Shown .undef []
  | true_ : Shown (.bool true) [116, 114, 117, 101]
  | false_ : Shown (.bool false) [102, 97, 108, 115, 101]
  | int {z} : Shown (.int z) (Value.print (.int z))
  | str {s} : Shown (.str s) (Value.print (.str s))
  | arr {ts xs} : ShownAll ts xs → Shown (.arr ts) ([91] ++ [44].intercalate xs ++ [93])
  | obj {ks ts xs ms} : ShownAll ts xs → (ks.zip xs).Perm ms →
      Shown (.obj ks ts) ([123, 10] ++ [44].intercalate (ms.map fun kv => kv.1 ++ 58 :: kv.2) ++ [10, 125])
/-- The same for lists. -/
inductive ShownAll : List Tree → List Bytes → Prop
  | nil : ShownAll [] []
  | cons {t x ts xs} : Shown t x → ShownAll ts xs → ShownAll (t :: ts) (x :: xs)
end

/-- In heap `h` every object is visited in an order that has each of its members once. -/
def Orders (ord : Nat → List Nat) (h : Owner.Heap) : Prop :=
  ∀ p ks vs, h.cell p = some (.obj ks vs) → (ord p).Perm (List.range ks.length)

end Eni.Spec
