import Verif.Spec.SMapSpec
/-!
# Specification: value types and the value of a new entry

A value of a scalar type may be indeterminate (`none`); reading it is undefined behaviour.
-/
namespace Eni.Spec

/-- A value type: a class whose default constructor gives `c`, or a scalar type with its zero. -/
inductive VKind (W : Type) where
  | cls (c : W)
  | scalar (zero : W)

/-- `V()`, what the standard containers give a new element. -/
def VKind.valueInit {W : Type} : VKind W → W
  | .cls c => c
  | .scalar z => z

/-- A variable defined without initializer. -/
def VKind.defaultInit {W : Type} : VKind W → Option W
  | .cls c => some c
  | .scalar _ => none

variable {W : Type}

/-- The operation with its values, which are determinate. -/
def liftOp : SOp W → SOp (Option W)
  | .assign k v => .assign k (some v)
  | .index k => .index k
  | .at_ k => .at_ k
  | .erase k => .erase k
  | .find k => .find k
  | .size => .size

/-- likewise for reports -/
def liftRet : SRet W → SRet (Option W)
  | .val v => .val (some v)
  | .thrown => .thrown
  | .erased b => .erased b
  | .found v => .found (v.map some)
  | .size n => .size n
  | .done => .done

/-- Along the history `m[k]` is only evaluated for keys that are bound. -/
def BoundReads (d : W) (m : FMap Bytes W) : List (SOp W) → Prop
  | [] => True
  | .index k :: ops => m.lookup k ≠ none ∧ BoundReads d (sstep d m (.index k)).1 ops
  | op :: ops => BoundReads d (sstep d m op).1 ops

end Eni.Spec
