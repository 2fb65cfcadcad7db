import Verif.Model.Consensus
import Verif.Model.JsonValue
/-!
# What test/consensus/consensus.py prints about a case

Model/Consensus leaves out what is printed. Here it is the sequence of characters on the standard output of the script. Simplified: the
lines that `TestResult.start_one` prints before the runs (consensus.py 20-25, 27) are not shown.
-/
namespace Eni.Consensus

/-- `str.isspace()` of one character in Python: the characters that `rstrip()` removes. -/
def isSpace (c : Char) : Bool :=
  let n := c.toNat
  (9 ≤ n && n ≤ 13) || (28 ≤ n && n ≤ 32) || n = 0x85 || n = 0xa0 || n = 0x1680 || (0x2000 ≤ n && n ≤ 0x200a) || n = 0x2028 || n = 0x2029 ||
    n = 0x202f || n = 0x205f || n = 0x3000

/-- `rstrip()` -/
def rstrip (s : List Char) : List Char := (s.reverse.dropWhile isSpace).reverse

/-- `str` of an `int` (decimal, as in Model/JsonValue). -/
def intStr (z : Int) : List Char := (Value.s256Print z).map fun b => Char.ofNat b.toNat

/-- `print('%s...' % prefix, x)`: the arguments separated by a blank, then a line feed. -/
def printLine (pre name x : List Char) : List Char := pre ++ name ++ ' ' :: x ++ ['\n']

/-- `caseprint` (consensus.py 73-81); `pre` is the prefix as computed in line 75. -/
def caseprint (t : Text) (pre : List Char) : List Char :=
  printLine pre "RETURN:".toList (intStr t.status) ++
  (if t.out.toList = [] then [] else printLine pre "STDOUT:".toList (rstrip t.out.toList)) ++
  (if t.err.toList = [] then [] else printLine pre "STDERR:".toList (rstrip t.err.toList)) ++ ['\n']

def expected : List Char := "(expected) ".toList
def gotThis : List Char := "(got this) ".toList

/-- What `finish_one` prints (consensus.py 56-58). -/
def TestCase.finishPrint (t : TestCase) (p : Proc) : List Char :=
  match decode p.out, decode p.err with
  | some out, some err =>
    if t.count = 1 then []
    else
      match t.first with
      | none => []
      | some f => if casecmp f ⟨p.status, out, err⟩ then [] else caseprint f expected ++ caseprint ⟨p.status, out, err⟩ gotThis
  | _, _ => []

/-- What the loop of `repeat` prints (consensus.py 112-118). -/
def repeatLoopPrint (run : Nat → Proc) : Nat → Nat → TestCase → List Char
  | 0, _, _ => []
  | n + 1, i, t =>
    t.startOne.finishPrint (run i) ++
      match t.startOne.finishOne (run i) with
      | some (t, true) => repeatLoopPrint run n (i + 1) t
      | _ => []

/-- What `summarize` prints (consensus.py 61-65). `first` is not `None` when it succeeds. -/
def TestCase.summarizePrint (t : TestCase) : List Char :=
  if t.count ≤ 1 || !t.same then []
  else match t.first with
    | none => []
    | some f => caseprint f []

/-- What `repeat` prints (consensus.py 110-119). -/
def repeatPrint (run : Nat → Proc) (n : Nat) : List Char :=
  repeatLoopPrint run n 0 TestCase.init ++
    match repeatLoop run n 0 TestCase.init with
    | some t => t.summarizePrint
    | none => []

end Eni.Consensus
