import Verif.Model.JsonParser
/-!
# `eni::EniBase` and the C entry points (include/eni/eni.h, lib/eni.cpp)

An operation is a class derived from `EniBase` that overrides the hooks `parse`, `gas` and `run`. It is given by `Hooks`: what the hooks
do to the members of the derived class (`S`) and what they return. The hooks are arbitrary; they may throw, exit, loop or be undefined.
-/
namespace Eni

namespace Value

/-- `toArray() const` (Value.h 55): the type is not checked; on another type the wrong member of the union is read. -/
def toArray : Value → Res (List Value)
  | .arr vs => .ok vs
  | _ => .ub .badUnion

/-- `toString() const` (Value.h 53). -/
def toStr : Value → Res Bytes
  | .str s => .ok s
  | _ => .ub .badUnion

/-- `toInteger() const` (Value.h 52). -/
def toInteger : Value → Res Int
  | .int z => .ok z
  | _ => .ub .badUnion

/-- `Array::operator[](int) const` (Array.h 29). -/
def argAt (vs : List Value) (i : Int) : Res Value :=
  match vs[(i % 18446744073709551616).toNat]? with
  | some e => .ok e
  | none => .throw .invalidVectorIndex

end Value

/-- Bytes of a C string up to the terminating NUL, as seen by whoever receives the pointer. -/
def cstr (s : Bytes) : Bytes := s.takeWhile (· ≠ 0)

namespace Base

/-- The overridden virtual functions (eni.h 78-82). `run` receives and returns the contents of the result array. -/
structure Hooks (S : Type) where
  init : S
  parse : S → List Value → S × Res Bool
  gas : S → Res Nat
  run : S → List Value → S × List Value × Res Bool

/-- An invocation of a hook, for the properties that count invocations (not part of the code). -/
inductive HookCall where
  | parse (r : Res Bool)
  | gas
  | run
  deriving DecidableEq, Repr

/-- The members of `EniBase` (eni.h 85-88), those of the derived class, and the hook invocations so far. -/
structure Obj (S : Type) where
  parsed : Bool
  success : Bool
  args : Value
  ret : Value
  st : S
  calls : List HookCall

variable {S : Type}

/-- `EniBase(const std::string&)` (eni.cpp 14-20). `copyTop` is the assignment `m_Args = parser.getRoot()`. -/
def construct (H : Hooks S) (L : Json.Layout) (s : Bytes) : Res (Obj S) := do
  let p ← Json.parse L s
  if p.success then .ok ⟨false, false, Json.copyTop p.root, .arr [], H.init, []⟩
  else .exit 87

/-- `check` (eni.h 69-75). If `parse` throws, `m_Parsed` stays false. -/
def check (H : Hooks S) (o : Obj S) : Obj S × Res Bool :=
  if o.parsed then (o, .ok o.success)
  else
    match o.args.toArray with
    | .ok vs =>
      let (st, r) := H.parse o.st vs
      let o := { o with st := st, calls := o.calls ++ [.parse r] }
      match r with
      | .ok b => ({ o with parsed := true, success := b }, .ok b)
      | .throw e => (o, .throw e)
      | .ub u => (o, .ub u)
      | .diverge => (o, .diverge)
      | .exit c => (o, .exit c)
    | .throw e => (o, .throw e)
    | .ub u => (o, .ub u)
    | .diverge => (o, .diverge)
    | .exit c => (o, .exit c)

/-- `getGas` (eni.h 50-54). -/
def getGas (H : Hooks S) (o : Obj S) : Obj S × Res Nat :=
  match check H o with
  | (o, .ok false) => (o, .ok 1500)
  | (o, .ok true) => ({ o with calls := o.calls ++ [.gas] }, H.gas o.st)
  | (o, .throw e) => (o, .throw e)
  | (o, .ub u) => (o, .ub u)
  | (o, .diverge) => (o, .diverge)
  | (o, .exit c) => (o, .exit c)

/-- `start` (eni.h 56-66); the result is the null pointer or a C string. -/
def start (H : Hooks S) (o : Obj S) : Obj S × Res (Option Bytes) :=
  match check H o with
  | (o, .ok false) => (o, .ok none)
  | (o, .ok true) =>
    match o.ret.toArray with
    | .ok vs =>
      let (st, vs, r) := H.run o.st vs
      let o := { o with st := st, ret := .arr vs, calls := o.calls ++ [.run] }
      match r with
      | .ok false => (o, .ok none)
      | .ok true => (o, .ok (some (cstr (Value.print o.ret))))
      | .throw e => (o, .throw e)
      | .ub u => (o, .ub u)
      | .diverge => (o, .diverge)
      | .exit c => (o, .exit c)
    | .throw e => (o, .throw e)
    | .ub u => (o, .ub u)
    | .diverge => (o, .diverge)
    | .exit c => (o, .exit c)
  | (o, .throw e) => (o, .throw e)
  | (o, .ub u) => (o, .ub u)
  | (o, .diverge) => (o, .diverge)
  | (o, .exit c) => (o, .exit c)

/-- A public call on an operation object. -/
inductive Call where
  | getGas
  | start
  deriving DecidableEq, Repr

/-- What it returned. -/
inductive Out where
  | gas (n : Nat)
  | text (t : Option Bytes)
  deriving DecidableEq, Repr

/-- One public call. -/
def call (H : Hooks S) (o : Obj S) : Call → Obj S × Res Out
  | .getGas => match getGas H o with | (o, r) => (o, r >>= fun n => .ok (.gas n))
  | .start => match start H o with | (o, r) => (o, r >>= fun t => .ok (.text t))

/-- The program goes on after the call (an exception may be caught). -/
def goesOn {α} : Res α → Bool
  | .ok _ => true
  | .throw _ => true
  | _ => false

/-- A sequence of calls on one object. -/
def session (H : Hooks S) (o : Obj S) : List Call → Obj S × List (Res Out)
  | [] => (o, [])
  | c :: cs =>
    match call H o c with
    | (o, r) =>
      if goesOn r then
        match session H o cs with
        | (o, rs) => (o, r :: rs)
      else (o, [r])

/-- `OP_gas(char*)` (eni.h 17-25): a new object for every call, `std::string` made from the C string. The result is written to a newly
allocated `uint64_t`. -/
def opGas (H : Hooks S) (L : Json.Layout) (s : Bytes) : Res Nat := do
  let o ← construct H L (cstr s)
  (getGas H o).2

/-- `OP_run(char*)` (eni.h 27-33). -/
def opRun (H : Hooks S) (L : Json.Layout) (s : Bytes) : Res (Option Bytes) := do
  let o ← construct H L (cstr s)
  (start H o).2

end Base
end Eni
