import Verif.Model.Cli
/-!
# What the command line tools should do
-/
namespace Eni.Spec
open Cli (Done)

/-- The positional arguments: those before the first `--` that do not begin with a dash, and all behind it. -/
def positional (args : List Bytes) : List Bytes :=
  (args.takeWhile (· ≠ [45, 45])).filter (fun a => a.head? ≠ some 45) ++ (args.dropWhile (· ≠ [45, 45])).tail

/-- The names of the two functions of an operation: `OP_gas` and `OP_run`. -/
def gasSymbol (op : Bytes) : Bytes := op ++ [95, 103, 97, 115]
def runSymbol (op : Bytes) : Bytes := op ++ [95, 114, 117, 110]

/-- What is seen of a process that ends: its standard output and its status. An exception that nobody catches aborts it (status 134 in a
shell). -/
inductive Seen : Res Done → Bytes → Nat → Prop
  | done {d} : Seen (.ok d) d.out d.status
  | exit {c} : Seen (.exit c) [] c
  | abort {e} : Seen (.throw e) [] 134

end Eni.Spec
