import Verif.Model.EniBase
/-!
# test/consensus/consensus.py

A Python exception that leaves a function is `none`. Text is given by its UTF-8 bytes. `x is 1` for an `int` is equality (small integers
are unique in CPython). What is printed about a case is in Model/ConsensusReport.
That `eni_run` cannot be started at all (not found, a NUL in an argument) is not shown; it is an exception, hence status 1.
-/
namespace Eni.Consensus

/-- A `CompletedProcess`; the status is negative if the process was ended by a signal. -/
structure Proc where
  status : Int
  out : Bytes
  err : Bytes
  deriving DecidableEq, Repr

/-- `decode("utf-8")` -/
def decode (b : Bytes) : Option String := String.fromUTF8? ⟨b.toArray⟩

/-- A process whose outputs have been decoded. -/
structure Text where
  status : Int
  out : String
  err : String
  deriving DecidableEq

/-- `TestCase` (consensus.py 42-44). -/
structure TestCase where
  first : Option Text
  count : Nat
  same : Bool

def TestCase.init : TestCase := ⟨none, 0, true⟩

/-- `start_one` (consensus.py 46-47). -/
def TestCase.startOne (t : TestCase) : TestCase := { t with count := t.count + 1 }

/-- `casecmp` (consensus.py 67-71). -/
def casecmp (a b : Text) : Bool := a.status = b.status && (a.out = b.out && a.err = b.err)

/-- `finish_one` (consensus.py 49-59). `first` is `None` only before the first call; then `casecmp` would raise. -/
def TestCase.finishOne (t : TestCase) (p : Proc) : Option (TestCase × Bool) := do
  let out ← decode p.out
  let err ← decode p.err
  let q : Text := ⟨p.status, out, err⟩
  if t.count = 1 then some ({ t with first := some q }, true)
  else
    match t.first with
    | none => none
    | some f =>
      let same := casecmp f q
      some ({ t with same := same }, same)

/-- `summarize` (consensus.py 61-65). -/
def TestCase.summarize (t : TestCase) : Bool := if t.count ≤ 1 || !t.same then false else true

/-- The loop of `repeat` (consensus.py 112-118); `n` rounds are left. `run i` is the result of the `i`-th execution. -/
def repeatLoop (run : Nat → Proc) : Nat → Nat → TestCase → Option TestCase
  | 0, _, t => some t
  | n + 1, i, t => do
    let (t, go) ← (t.startOne).finishOne (run i)
    if go then repeatLoop run n (i + 1) t else some t

/-- `repeat` (consensus.py 110-119). -/
def repeat_ (run : Nat → Proc) (n : Nat) : Option Bool := do
  let t ← repeatLoop run n 0 TestCase.init
  some t.summarize

/-- `fns[arg[0]](arg[2:])` (consensus.py 97-104): `gen kind rest` stands for the three functions; they raise for bad arguments. Simplified:
the second character is one byte. -/
def expandArg (gen : UInt8 → Bytes → Option Bytes) (arg : Bytes) : Option Bytes :=
  match arg with
  | [] => none
  | k :: rest => if k = 115 ∨ k = 102 ∨ k = 104 then gen k rest.tail else none

/-- `','.join` of the quoted strings. -/
def joinQuoted : List Bytes → Bytes
  | [] => []
  | [x] => 34 :: (x ++ [34])
  | x :: xs => 34 :: (x ++ [34]) ++ 44 :: joinQuoted xs

def expandAll (gen : UInt8 → Bytes → Option Bytes) : List Bytes → Option (List Bytes)
  | [] => some []
  | a :: as => do
    let x ← expandArg gen a
    let xs ← expandAll gen as
    some (x :: xs)

/-- `expand` (consensus.py 83-108); every element is a string. -/
def expand (gen : UInt8 → Bytes → Option Bytes) (args : List Bytes) : Option Bytes := do
  let xs ← expandAll gen args
  some (91 :: (joinQuoted xs ++ [93]))

/-- `TestResult` (consensus.py 14-16). -/
structure TestResult where
  tests : Nat
  run : Nat
  failed : Nat

/-- `TestResult.start_one` (consensus.py 18-29) without the counter: exceptions are caught, then both or the parameters are `None`. -/
def startOne (gen : UInt8 → Bytes → Option Bytes) : List Bytes → Option Bytes × Option Bytes
  | [] => (none, none)
  | op :: args => (some op, expand gen args)

/-- `TestResult.finish_one` (consensus.py 31-33). -/
def TestResult.finishOne (r : TestResult) (success : Bool) : TestResult :=
  { r with run := r.run + 1, failed := r.failed + if success then 0 else 1 }

/-- `TestResult.summarize` (consensus.py 35-40). -/
def TestResult.summarize (r : TestResult) : Bool :=
  if r.tests ≠ r.run then false else if r.failed ≠ 0 then false else true

/-- The loops of `run_tests` (consensus.py 124-130) over all pairs of a library and the argument list of a case. `gen` and `exec` (the
executions of `eni_run`) may behave differently in every case: their first argument is its number. -/
def testLoop (gen : Nat → UInt8 → Bytes → Option Bytes) (exec : Nat → Bytes → Bytes → Bytes → Nat → Proc) (n : Nat) :
    List (Bytes × List Bytes) → TestResult → Option TestResult
  | [], r => some r
  | (lib, args) :: rest, r =>
    let i := r.tests
    let r := { r with tests := r.tests + 1 }
    match startOne (gen i) args with
    | (some op, some params) =>
      if op = [] ∨ params = [] then testLoop gen exec n rest r
      else do
        let success ← repeat_ (exec i lib op params) n
        testLoop gen exec n rest (r.finishOne success)
    | _ => testLoop gen exec n rest r

/-- `run_tests` (consensus.py 121-131); the assertion raises. The cases of a library with the same name as an earlier one replace those of
the earlier one when the JSON file is read; this is before the call (Model/ConsensusFile). -/
def runTests (gen : Nat → UInt8 → Bytes → Option Bytes) (exec : Nat → Bytes → Bytes → Bytes → Nat → Proc) (n : Nat)
    (cases : List (Bytes × List Bytes)) : Option Bool := do
  if n > 1 then
    let r ← testLoop gen exec n cases ⟨0, 0, 0⟩
    some r.summarize
  else none

/-- Exit status of the script (consensus.py 141-144): an exception gives 1 as well. -/
def scriptStatus (gen : Nat → UInt8 → Bytes → Option Bytes) (exec : Nat → Bytes → Bytes → Bytes → Nat → Proc) (n : Nat)
    (cases : List (Bytes × List Bytes)) : Nat :=
  match runTests gen exec n cases with
  | some true => 0
  | _ => 1

end Eni.Consensus
