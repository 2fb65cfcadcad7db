import Verif.Model.StringMap
/-!
# The assertions of the JSON tests (test/jsontests/__init__.py 20-42)

Texts are lists of bytes: the results of the operation are ASCII (C51). `int(b, 16)` belongs to Python and is a parameter; `none` is ValueError.
-/
namespace Eni.JsonTests

/-- How an assertion ends: it passes, it fails (AssertionError), or another exception leaves it. -/
inductive Outcome
  | pass
  | fail
  | error
deriving DecidableEq

/-- `b[i:j]` for 0 ≤ i ≤ j -/
def slice (b : Bytes) (i j : Nat) : Bytes := (b.drop i).take (j - i)

/-- `u32hex2int` (jsontests/__init__.py 20-22). The error is the outcome of the assertion. -/
def u32hex2int (int16 : Bytes → Option Int) (b : Bytes) : Except Outcome Int :=
  if b.length ≠ 8 then .error .fail
  else match int16 b with
    | some z => .ok z
    | none => .error .error

/-- `o[0]` -/
def first : List Bytes → Except Outcome Bytes
  | [] => .error .error
  | x :: _ => .ok x

/-- `assertRange` (jsontests/__init__.py 34-37); `o` is the list that `eni_xx` returned. -/
def assertRange (int16 : Bytes → Option Int) (o : List Bytes) (expectedBegin expectedEnd : Int) : Outcome :=
  let r : Except Outcome Outcome := do
    let x ← first o
    let b ← u32hex2int int16 (slice x 0 8)
    let e ← u32hex2int int16 (x.drop 8)
    if (b, e) = (expectedBegin, expectedEnd) then pure .pass else pure .fail
  match r with
  | .ok t => t
  | .error t => t

/-- The generator in `assertRanges` (jsontests/__init__.py 41) from the index `i` on, for `n` further steps of `range(0, len(expected) * 8, 8)`. -/
def actual (int16 : Bytes → Option Int) (x : Bytes) : Nat → Nat → Except Outcome (List Int)
  | _, 0 => .ok []
  | i, n + 1 => do
    let v ← u32hex2int int16 (slice x i (i + 8))
    let vs ← actual int16 x (i + 8) n
    pure (v :: vs)

/-- `assertRanges` (jsontests/__init__.py 39-42). For an empty `expected` the generator does not look at `o`. -/
def assertRanges (int16 : Bytes → Option Int) (o : List Bytes) (expected : List Int) : Outcome :=
  let r : Except Outcome Outcome := do
    let vs ← if expected = [] then pure [] else do
      let x ← first o
      actual int16 x 0 expected.length
    if vs = expected then pure .pass else pure .fail
  match r with
  | .ok t => t
  | .error t => t

end Eni.JsonTests
