import Verif.Spec.OwnerArray
import Verif.Model.OwnerKind
/-!
# What programs that use values through their base class may expect

As Spec/OwnerArray. Only `NOp` and `Rep` (the language of programs) are taken from the model.
-/
namespace Eni.Spec
open Owner

/-- What `type()` is expected to report. -/
def Tree.kind : Tree → Ty
  | .undef => .undef
  | .int _ => .int
  | .bool _ => .bool
  | .str _ => .str
  | .arr _ => .arr
  | .obj _ _ => .obj

/-- Expected effect of one operation. To be avoided: to give a value the kind of a value of another kind, unless that is undefined. -/
def npstep (t : Tree) : NOp → Option (Tree × Owner.Rep)
  | .base op => apstep t op
  | .copyKind dst src => do
    if dst = [] ∨ src = [] then none else
    let y ← t.get dst
    let x ← t.get src
    if y.kind = x.kind then some (t, .done)
    else if x.kind = .undef then some (t.set .undef dst, .done)
    else none
  | .moveKind dst src => do
    if dst = [] ∨ src = [] then none else
    let y ← t.get dst
    let x ← t.get src
    if dst = src then some (t, .done)
    else if y.kind = x.kind then some (t.set .undef src, .done)
    else if x.kind = .undef then some (t.set .undef dst, .done)
    else none
  | .takeKind src => do
    if src = [] then none else
    let _ ← t.get src
    some (t.set .undef src, .done)

/-- Expected effect of a program. -/
def npruns (t : Tree) : List NOp → Option (Tree × List Owner.Rep)
  | [] => some (t, [])
  | op :: ops => do
    let (t, r) ← npstep t op
    let (t, rs) ← npruns t ops
    some (t, r :: rs)

end Eni.Spec
