import Verif.Spec.EniMem
/-!
# Calls in one process should be independent of each other
-/
namespace Eni.Spec
open Owner

/-- What a call gives in a process of its own. -/
def alone (grow : Nat → Bool) (L : Json.Layout) (c : Call) : Res Out := do
  let (_, o) ← callAt grow L Left.init c
  .ok o

/-- Each call in a process of its own, until one does not return. -/
def apart (grow : Nat → Bool) (L : Json.Layout) : List Call → Res (List Out)
  | [] => .ok []
  | c :: cs => do
    let o ← alone grow L c
    let os ← apart grow L cs
    .ok (o :: os)

/-- `m` is what the call leaves in a process of its own, including what it returned. -/
def Leaves (grow : Nat → Bool) (L : Json.Layout) (c : Call) (m : Nat) : Prop := ∃ l o, callAt grow L Left.init c = .ok (l, o) ∧ Left.total l = m

/-- Blocks that the caller got and has to release itself: a text, or the memory that holds the gas. -/
def handed : Out → Nat
  | .gas (.value _) => 1
  | .text (.value (some _)) => 1
  | _ => 0

end Eni.Spec
