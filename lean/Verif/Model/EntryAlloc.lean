import Verif.Model.Cli
/-!
# The entry points when memory for their result is refused (include/eni/eni.h)

`Cli.gasEntry` and `Cli.runEntry` assume that `malloc` provides the few bytes of the result. Here `grant` says whether it does. Everything else
(the object, the parser's storage, the text of `std::ostringstream`) is obtained with `new`, whose refusal would be an exception; it is taken
as granted here.
-/
namespace Eni.Cli

/-- `OP_gas` (eni.h 17-25): the result of `malloc` is not checked before `*ptrGas = gas`. -/
def gasEntryA {S : Type} (grant : Bool) (H : Base.Hooks S) (L : Json.Layout) : Entry Nat := fun s => do
  let n ← Base.opGas H L s
  if grant then .ok (some n) else .ub .nullDeref

/-- `OP_run` (eni.h 27-33): `start` returns what `::strdup` returns (eni.h 65), the null pointer when memory is refused. -/
def runEntryA {S : Type} (grant : Bool) (H : Base.Hooks S) (L : Json.Layout) : Entry Bytes := fun s => do
  let r ← Base.opRun H L s
  match r with
  | none => .ok none
  | some t => if grant then .ok (some t) else .ok none

end Eni.Cli
