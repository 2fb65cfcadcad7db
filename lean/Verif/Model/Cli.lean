import Verif.Model.EniBase
/-!
# Command line tools (tools/eni_cli)

The dynamic loader is a parameter. Arguments of the program are C strings: they contain no NUL.
-/
namespace Eni.Cli

/-- Members of `Opt` that `parse` sets (optParser.h 52-54). -/
structure Opt where
  lib : Bytes
  op : Bytes
  params : Bytes
  deriving DecidableEq, Repr

/-- The loop of `Opt::parse` (optParser.cpp 16-42): `true` if it was left by `return false`; the members; the number of positional
arguments. -/
def parseLoop : Bool → Nat → Opt → List Bytes → Bool × Opt × Nat
  | _, posCount, o, [] => (false, o, posCount)
  | endOfOptions, posCount, o, arg :: rest =>
    if arg.head? = some 45 ∧ endOfOptions = false then
      if arg.length = 2 ∧ arg[1]? = some 45 then parseLoop true posCount o rest
      else parseLoop endOfOptions posCount o rest
    else
      match posCount + 1 with
      | 1 => parseLoop endOfOptions 1 { o with lib := arg } rest
      | 2 => parseLoop endOfOptions 2 { o with op := arg } rest
      | 3 => parseLoop endOfOptions 3 { o with params := arg } rest
      | n => (true, o, n)

/-- `Opt::parse` (optParser.cpp 12-48); `args` is `argv` without the name of the program. `none` is the result false. -/
def parse (args : List Bytes) : Option Opt :=
  match parseLoop false 0 ⟨[], [], []⟩ args with
  | (true, _, _) => none
  | (false, o, posCount) => if posCount < 3 then none else some o

/-- `ExitStatus` (ceni.h 16-24) -/
def exitSuccess : Nat := 0
def exitParseError : Nat := 2
def exitLoadError : Nat := 3
def exitSymError : Nat := 4
def exitRunError : Nat := 5

/-- `Opt::help` (optParser.h 28-46). -/
def help (name desc : Bytes) : Bytes :=
  "NAME\n\t".toUTF8.toList ++ name ++ " - ".toUTF8.toList ++ desc ++ "\n\nSYNOPSIS\n\t".toUTF8.toList ++ name ++
  " <LIBPATH> <OP> <JSON>\n\nDESCRIPTION\n\tLIBPATH\n\t\tpath to the shared library\n\n\tOP\n\t\tname of the ENI operation\n\n\tJSON\n\t\tparameters passed to the operation in JSON format\n\n".toUTF8.toList

/-- A function `void* f(char*)` of a library as the tools use it: the null pointer or what the pointer refers to. -/
abbrev Entry (α : Type) := Bytes → Res (Option α)

/-- The system. `dlopen` returns null or a library; `dlsym` returns null or a function, whose result is read as `uint64_t*` by eni_gas and as
C string by eni_run. `deleteFrees` tells whether `operator delete` accepts memory obtained from `malloc` (the usual implementations do, the
language does not allow it). -/
structure Sys where
  Lib : Type
  dlopen : Bytes → Option Lib
  gasSym : Lib → Bytes → Option (Entry Nat)
  runSym : Lib → Bytes → Option (Entry Bytes)
  deleteFrees : Bool

/-- Standard output, standard error, exit status. -/
structure Done where
  out : Bytes
  err : Bytes
  status : Nat
  deriving DecidableEq, Repr

/-- `std::cout << uint64_t` (eni_gas.cpp 35): the same digits as for a non-negative `s256`. -/
def decimal (n : Nat) : Bytes := Value.natDec n

def gasName : Bytes := "eni_gas".toUTF8.toList
def gasDesc : Bytes := "the estimated gas cost when running the ENI operation".toUTF8.toList
def runName : Bytes := "eni_run".toUTF8.toList
def runDesc : Bytes := "run the ENI operation and print the result in JSON format".toUTF8.toList
def gasSuffix : Bytes := "_gas".toUTF8.toList
def runSuffix : Bytes := "_run".toUTF8.toList

/-- `main` of eni_gas (eni_gas.cpp 18-40). -/
def gasMain (S : Sys) (args : List Bytes) : Res Done :=
  match parse args with
  | none => .ok ⟨[], help gasName gasDesc, exitParseError⟩
  | some o =>
    match S.dlopen o.lib with
    | none => .ok ⟨[], [], exitLoadError⟩
    | some h =>
      match S.gasSym h (o.op ++ gasSuffix) with
      | none => .ok ⟨[], [], exitSymError⟩
      | some f => do
        let p ← f o.params
        match p with
        | none => .ok ⟨[], [], exitRunError⟩
        | some n => if S.deleteFrees then .ok ⟨decimal n ++ [10], [], exitSuccess⟩ else .ub .wrongFree

/-- `main` of eni_run (eni_run.cpp 18-40). -/
def runMain (S : Sys) (args : List Bytes) : Res Done :=
  match parse args with
  | none => .ok ⟨[], help runName runDesc, 1⟩
  | some o =>
    match S.dlopen o.lib with
    | none => .ok ⟨[], [], exitLoadError⟩
    | some h =>
      match S.runSym h (o.op ++ runSuffix) with
      | none => .ok ⟨[], [], exitSymError⟩
      | some f => do
        let p ← f o.params
        match p with
        | none => .ok ⟨[], [], exitRunError⟩
        | some s => .ok ⟨cstr s ++ [10], [], exitSuccess⟩

/-- The functions that `ENI_C_INTERFACE` defines (eni.h 17-37): `malloc` is assumed to succeed. -/
def gasEntry {S : Type} (H : Base.Hooks S) (L : Json.Layout) : Entry Nat := fun s => do
  let n ← Base.opGas H L s
  .ok (some n)

def runEntry {S : Type} (H : Base.Hooks S) (L : Json.Layout) : Entry Bytes := Base.opRun H L

end Eni.Cli
