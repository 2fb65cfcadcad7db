import Verif.Model.OpsMem
import Verif.Spec.EniMem
/-!
# An operation in memory should do the same as on plain data
-/
namespace Eni.Spec
open Owner

/-- What the caller of an entry point sees, without what it leaves in memory. -/
def outcome {α} (x : Res (Left × Ret α)) : Res α := raise id (x >>= fun y => .ok y.2)

/-- No key in the argument text is longer than a `StringMap` can store. -/
def ShortKeyText (s : Bytes) : Prop := ∀ w t r j, cstr s = w ++ (t ++ r) → WS w → JText t j → ShortKeys j

/-- Whatever a process called before, a call of the operation `O` in memory has the outcome that the hooks `H` on plain data have. -/
def SameInMemory {S : Type} (O : OpM S) (H : Base.Hooks S) : Prop :=
  ∀ (grow : Nat → Bool) (L : Json.Layout) (cs : List Call) (l : Left) (os : List Out) (s : Bytes), session grow L Left.init cs = .ok (l, os) →
    (cstr s).length ≤ 1073643498 → ShortKeyText s →
    outcome (runAt grow L O l s) = Base.opRun H L s ∧ outcome (gasAt grow L O l s) = Base.opGas H L s

end Eni.Spec
