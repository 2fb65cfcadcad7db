import Verif.Model.EniBase
/-!
# What callers of an operation expect

`parse` is consulted once; its verdict decides everything afterwards. Only the hooks and the language of calls are taken from the model.
-/
namespace Eni.Spec
open Base

variable {S : Type}

/-- The answers of an operation that accepted its arguments, `st` and `vs` being its state and its result array. -/
def accepted (H : Hooks S) : S → List Value → List Call → List (Res Out)
  | _, _, [] => []
  | st, vs, .getGas :: cs =>
    match H.gas st with
    | .ok n => .ok (.gas n) :: accepted H st vs cs
    | .throw e => .throw e :: accepted H st vs cs
    | .ub u => [.ub u]
    | .diverge => [.diverge]
    | .exit c => [.exit c]
  | st, vs, .start :: cs =>
    match H.run st vs with
    | (st, vs, .ok true) => .ok (.text (some (cstr (Value.print (.arr vs))))) :: accepted H st vs cs
    | (st, vs, .ok false) => .ok (.text none) :: accepted H st vs cs
    | (st, vs, .throw e) => .throw e :: accepted H st vs cs
    | (_, _, .ub u) => [.ub u]
    | (_, _, .diverge) => [.diverge]
    | (_, _, .exit c) => [.exit c]

/-- The answers of an operation that rejected its arguments. -/
def rejected (cs : List Call) : List (Res Out) :=
  cs.map fun
    | .getGas => .ok (.gas 1500)
    | .start => .ok (.text none)

end Eni.Spec
