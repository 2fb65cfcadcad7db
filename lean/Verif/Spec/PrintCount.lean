import Verif.Model.JsonValue
/-!
# Sizes of arrays
-/
namespace Eni.Spec

/-- Every array in the value, at any depth, has fewer than `n` elements. -/
inductive ArraysBelow (n : Nat) : Value → Prop
  | undef : ArraysBelow n .undef
  | int {z} : ArraysBelow n (.int z)
  | bool {b} : ArraysBelow n (.bool b)
  | str {s} : ArraysBelow n (.str s)
  | arr {vs} : vs.length < n → (∀ v ∈ vs, ArraysBelow n v) → ArraysBelow n (.arr vs)
  | obj {m} : (∀ kv ∈ SMap.bindings m, ArraysBelow n kv.2) → ArraysBelow n (.obj m)

end Eni.Spec
