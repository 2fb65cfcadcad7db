import Verif.Model.ConsensusReadf
/-!
# The functions that make the arguments of the consensus test (test/consensus/consensus.py 83-104)
-/
namespace Eni.Consensus
open Base

/-- White space for `int`. -/
def isSp (c : UInt8) : Bool := c = 32 || (9 ≤ c && c ≤ 13)

def isDig (c : UInt8) : Bool := 48 ≤ c && c ≤ 57

/-- The digits behind the first one, and what is behind them: an underscore must be followed by a digit. -/
def intLoop (acc : Nat) : Bytes → Option (Nat × Bytes)
  | [] => some (acc, [])
  | c :: r =>
    if isDig c then intLoop (10 * acc + (c.toNat - 48)) r
    else if c = 95 then
      match r with
      | [] => none
      | d :: s => if isDig d then intLoop (10 * acc + (d.toNat - 48)) s else none
    else some (acc, c :: r)

/-- Digits, then white space up to the end. -/
def intDigits : Bytes → Option Nat
  | [] => none
  | c :: r =>
    if isDig c then
      match intLoop (c.toNat - 48) r with
      | some (n, rest) => if rest.all isSp then some n else none
      | none => none
    else none

/-- `int(n)` of Python (called in consensus.py 87 and 95), a part of the language: `none` is `ValueError`. Simplified: texts in ASCII (Python also takes the
digits and the white space of other scripts) and no limit for the number of digits (4300 in later versions). -/
def pyInt (b : Bytes) : Option Int :=
  match b.dropWhile isSp with
  | [] => none
  | c :: r =>
    if c = 45 then (intDigits r).map fun (n : Nat) => -(n : Int)
    else if c = 43 then (intDigits r).map fun (n : Nat) => (n : Int)
    else (intDigits (c :: r)).map fun (n : Nat) => (n : Int)

/-- `rands` (consensus.py 84-88) and `randh` (92-96): `''.join(random.choice(...) for _ in range(int(n)))`. `choice i` is the result of call `i`; `range` of a
negative number is empty. -/
def randText (choice : Nat → UInt8) (n : Bytes) : Option Bytes := (pyInt n).map fun z => (List.range z.toNat).map choice

/-- The table `fns` (consensus.py 97-101). `up` and `hex` are the choices of the two functions, `file` the contents of the files (`none`: `open` raises). -/
def fns (up hex : Nat → UInt8) (file : Bytes → Option Bytes) (kind : UInt8) (arg : Bytes) : Option Bytes :=
  if kind = 115 then randText up arg
  else if kind = 104 then randText hex arg
  else if kind = 102 then (file arg).bind readf
  else none

end Eni.Consensus
