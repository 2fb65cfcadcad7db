import Verif.Model.Consensus
/-!
# The list of tests as a JSON file (test/consensus/consensus.py 124-126, 141)

The file is a JSON object: names of libraries with their lists of cases. Here it is the list of its members in the order of the text. Reading the text itself and
files of another shape are not shown.
-/
namespace Eni.Consensus

/-- A member is stored in a Python `dict`: a name that is already there keeps its place and gets the new value. -/
def dictSet (d : List (Bytes × List (List Bytes))) (name : Bytes) (ops : List (List Bytes)) : List (Bytes × List (List Bytes)) :=
  match d with
  | [] => [(name, ops)]
  | (m, old) :: d => if m = name then (m, ops) :: d else (m, old) :: dictSet d name ops

/-- `json.loads(args.file.read())` (consensus.py 141): the members are stored one after the other. -/
def loadTests (members : List (Bytes × List (List Bytes))) : List (Bytes × List (List Bytes)) :=
  members.foldl (fun d m => dictSet d m.1 m.2) []

/-- The two loops of `run_tests` (consensus.py 124-126): all pairs of a library and a case, in order. -/
def casesOf (tests : List (Bytes × List (List Bytes))) : List (Bytes × List Bytes) := tests.flatMap fun t => t.2.map fun args => (t.1, args)

/-- Exit status of the script for a file (consensus.py 141-144). -/
def fileStatus (gen : Nat → UInt8 → Bytes → Option Bytes) (exec : Nat → Bytes → Bytes → Bytes → Nat → Proc) (n : Nat)
    (members : List (Bytes × List (List Bytes))) : Nat := scriptStatus gen exec n (casesOf (loadTests members))

/-- The bytes of an ASCII text. -/
def ascii (s : String) : Bytes := s.toList.map fun c => c.toNat.toUInt8

/-- The list of tests of the project (test/consensus/tests.json.in) with `dir` for `CMAKE_BINARY_DIR`. Simplified: `dir` has nothing that JSON text escapes. -/
def shippedTests (dir : Bytes) : List (Bytes × List (List Bytes)) :=
  [(dir ++ ascii "/examples/eni/eni_reverse.so", [[ascii "reverse", ascii "s:32"]]),
   (dir ++ ascii "/tools/eni_crypto/eni_crypto.so",
     [[ascii "rsa_encrypt", ascii "f:data/pub.pem", ascii "s:17"], [ascii "rsa_decrypt", ascii "f:data/priv.pem", ascii "f:data/rsa"]]),
   (dir ++ ascii "/tools/eni_scrypt/eni_scrypt.so", [[ascii "scrypt", ascii "h:160"]]),
   (dir ++ ascii "/tools/eni_scrypt/eni_scrypt.so", [[ascii "scrypt", ascii "s:160"]])]

end Eni.Consensus
