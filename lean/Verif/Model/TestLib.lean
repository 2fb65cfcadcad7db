import Verif.Model.EniBase
import Mathlib.Data.List.SplitOn
/-!
# The shell functions of the regression tests (test/testlib.sh)

A command is what it wrote and its status; `2>&1` sends both streams to the same place, so what it wrote is one sequence of bytes in the order of the writes.
Commands are arbitrary functions of what was run before. Simplified: file names in `$(...)`, signals to the shell and a failing `fork` are not shown.
-/
namespace Eni.TestLib

/-- A write of a command. -/
inductive Write where
  | out (b : Bytes)
  | err (b : Bytes)
  deriving DecidableEq

/-- A command that ended. -/
structure Ran where
  writes : List Write
  status : Nat

/-- `2>&1`: everything that was written. -/
def Ran.all (r : Ran) : Bytes := r.writes.flatMap fun w => match w with
  | .out b => b
  | .err b => b

/-- Without the line feeds at the end. -/
def chop (b : Bytes) : Bytes := (b.reverse.dropWhile (· = 10)).reverse

/-- `$(...)` in bash: NUL bytes are dropped and the line feeds at the end are cut off. -/
def substitute (b : Bytes) : Bytes := chop (b.filter (· ≠ 0))

/-- `t_run` (testlib.sh 30-36): the variables `output` and `status`. -/
def tRun (r : Ran) : Bytes × Nat := (substitute r.all, r.status)

/-- `o_expect` (testlib.sh 44-50): its status. `p_expect` (14-18) returns 1. -/
def oExpect (expect : Bytes) (r : Ran) : Nat := if expect = (tRun r).1 then 0 else 1

/-- A script of calls of `o_expect` under `set -e` (testlib.sh 8): it ends at the first call that fails. The result is the status of the script and what was run. -/
def script : List (Bytes × Ran) → Nat × List Ran
  | [] => (0, [])
  | (e, r) :: cs =>
    if oExpect e r = 0 then
      let (s, rs) := script cs
      (s, r :: rs)
    else (oExpect e r, [r])

/-- A character of the shell's default `IFS`, at which `$(cat ...)` of docs/tools/eni_cli.rst:49-52 is split: space, tab or line feed. -/
def isIfs (c : UInt8) : Bool := c = 32 || c = 9 || c = 10

/-- `$(...)` without quotation marks, as in docs/tools/eni_cli.rst:49-52: the words of the output. Simplified: no word is taken as a pattern for
file names (the words of the files in test/t0004 are none: `[` and `]` are in different words). -/
def words (b : Bytes) : List Bytes := ((substitute b).splitOnP isIfs).filter (· ≠ [])

end Eni.TestLib
