import Verif.Model.Consensus
import Verif.Model.TestLib
/-!
# `readf` of the consensus test (test/consensus/consensus.py 89-91)
-/
namespace Eni.Consensus
open Base

/-- A file opened with mode `'r'` is read with universal newlines: CR LF and CR become LF (consensus.py 90). -/
def newlines : Bytes → Bytes
  | [] => []
  | c :: r =>
    if c = 13 then
      match r with
      | [] => [10]
      | d :: s => if d = 10 then 10 :: newlines s else 10 :: newlines (d :: s)
    else c :: newlines r

/-- `readf` (consensus.py 89-91) applied to a file with these contents: `fin.read().rstrip('\n')`. A file that is not UTF-8 raises. Simplified: the locale's
encoding is UTF-8; the bytes are kept instead of the characters, because the parameters are encoded again for the command line. -/
def readf (b : Bytes) : Option Bytes := do
  let _ ← decode b
  some (TestLib.chop (newlines b))

end Eni.Consensus
