import Verif.Model.ParserMem
import Verif.Model.EniBase
/-!
# The C entry points in memory (include/eni/eni.h, lib/eni.cpp)

Model/EniBase treats `m_Args` and `m_RetVals` as pure data. Here they are values in memory: the text is parsed as in Model/ParserMem, the hooks of the
operation read their arguments through pointers, results are stored with `emplace_back`, and the operation object is deleted at the end, or not at all
if a hook throws.

Simplified: an operation reads its arguments through the `const` interface of `json::Value` and returns booleans, integers and strings; what the hooks
do besides (the members of the derived class) is pure data.
-/
namespace Eni
namespace Owner

/-- A parse hook as a program that reads from its argument `pArgs`; `done` is what it does in the end. The path `[.elem 0, .mem k]` stands for
`pArgs[0].toObject().at(k)`. -/
inductive Rd (α : Type) where
  | done (r : Res α)
  | str (p : Path) (k : Bytes → Rd α)      -- .toString()
  | int (p : Path) (k : Int → Rd α)        -- .toInteger()
  | bool (p : Path) (k : Bool → Rd α)      -- .toBoolean()
  | type (p : Path) (k : Ty → Rd α)        -- .type(), .isString(), ...
  | size (p : Path) (k : Nat → Rd α)       -- .toArray().size()

/-- `.toArray()[i]` (Value.h 55, Array.h 29: checked access) and `.toObject().at(k)` (Value.h 54, StringMap.h 65-70), applied in turn. The type of a value
is not checked. -/
def fetch (h : Heap) (v : Val) : Path → Res Val
  | [] => .ok v
  | .elem i :: ps =>
    if v.ty = .arr then do
      match ← h.deref v.bits with
      | (_, .arr vs) =>
        match vs[i]? with
        | some w => fetch h w ps
        | none => .throw .invalidVectorIndex
      | _ => .ub .badUnion
    else .ub .badUnion
  | .mem k :: ps =>
    if v.ty = .obj then do
      match ← h.deref v.bits with
      | (_, .obj ks vs) =>
        if k ∈ ks then
          match vs[ks.idxOf k]? with
          | some w => fetch h w ps
          | none => .ub .outOfBounds
        else .throw .invalidStringMapKey
      | _ => .ub .badUnion
    else .ub .badUnion

/-- A hook reads from the array `v` in memory (Value.h 51-55, Notation.h 33-40). -/
def Rd.runM {α} (h : Heap) (v : Val) : Rd α → Res α
  | .done r => r
  | .str p k => do
    let w ← fetch h v p
    if w.ty = .str then
      match ← h.deref w.bits with
      | (_, .str s) => (k s).runM h v
      | _ => .ub .badUnion
    else .ub .badUnion
  | .int p k => do
    let w ← fetch h v p
    if w.ty = .int then
      match ← h.deref w.bits with
      | (_, .int z) => (k z).runM h v
      | _ => .ub .badUnion
    else .ub .badUnion
  | .bool p k => do
    let w ← fetch h v p
    if w.ty = .bool then
      match w.bits with
      | .bool b => (k b).runM h v
      | _ => .ub .badUnion
    else .ub .badUnion
  | .type p k => do
    let w ← fetch h v p
    (k w.ty).runM h v
  | .size p k => do
    let w ← fetch h v p
    if w.ty = .arr then
      match ← h.deref w.bits with
      | (_, .arr vs) => (k vs.length).runM h v
      | _ => .ub .badUnion
    else .ub .badUnion

/-- An argument of `pRetVal.emplace_back`. -/
inductive Sc where
  | bool (b : Bool)
  | int (z : Int)
  | str (s : Bytes)
  deriving DecidableEq, Repr

/-- `new Value(arg)` -/
def Sc.op : Sc → Op
  | .bool b => .bool b
  | .int z => .int z
  | .str s => .str s

/-- A class derived from `EniBase`. `run` gives the results it stores before it returns or throws. -/
structure OpM (S : Type) where
  init : S
  parse : Rd (S × Bool)
  gas : S → Res Nat
  run : S → List Sc × Res Bool

/-- What a call ends with: a return value or an exception. -/
inductive Ret (α : Type) where
  | value (a : α)
  | thrown (e : Exc)
  deriving DecidableEq, Repr

/-- Memory after a call: the heap of Model/JsonOwner, and the number of other blocks that are still allocated: the operation object itself, `Value`s
allocated by `emplace_back`, and the memory handed to the caller. `n` is the number of variables so far. -/
structure Left where
  h : Heap
  blocks : Nat
  n : Nat

/-- Before the first call. -/
def Left.init : Left := ⟨Heap.init, 0, 0⟩

/-- `emplace_back` for each result (bits/Vector.tcc 241-247): `*(new ElementType(...))` is copied into the array and never deleted. -/
def emplaceAll (h : Heap) (ret n : Nat) : List Sc → Res Heap
  | [] => .ok h
  | s :: ss => do
    let h ← exec h [s.op, .pushBack [.elem ret] [.elem n]]
    emplaceAll h ret (n + 1) ss

/-- `print` of one result (Value.cpp 124-151). Not shown: results that are arrays or objects, which `Sc` excludes. -/
def printOne (h : Heap) (v : Val) : Res Bytes :=
  match v.ty with
  | .undef => .ok []
  | .bool =>
    match v.bits with
    | .bool b => .ok (Value.print (.bool b))
    | _ => .ub .badUnion
  | .int => do
    match ← h.deref v.bits with
    | (_, .int z) => .ok (Value.s256Print z)
    | _ => .ub .badUnion
  | .str => do
    match ← h.deref v.bits with
    | (_, .str s) => .ok (Value.printStr s)
    | _ => .ub .badUnion
  | _ => .ub .badUnion

/-- The elements in turn. -/
def printAll (h : Heap) : List Val → Res (List Bytes)
  | [] => .ok []
  | v :: vs => do
    let t ← printOne h v
    let ts ← printAll h vs
    .ok (t :: ts)

/-- `m_RetVals.print(os)` (eni.h 64, Array.cpp 27-36). -/
def printRet (h : Heap) (ret : Nat) : Res Bytes := do
  let v ← readAt h ⟨0, ret⟩
  if v.ty = .arr then
    match ← h.deref v.bits with
    | (_, .arr vs) => do
      let ts ← printAll h vs
      .ok (91 :: Value.printElems 0 ts ++ [93])
    | _ => .ub .badUnion
  else .ub .badUnion

/-- `new CLZ(pArgStr)` (eni.cpp 14-20) in a program with `n` variables: the result is the heap and the number of `m_Args`; `m_RetVals` is the variable after
it. The parser is destroyed at the end of the constructor. The members are declared here after parsing, which makes no difference: nothing happens to them
before. -/
def constructAt (grow : Nat → Bool) (L : Json.Layout) (h : Heap) (n : Nat) (s : Bytes) : Res (Heap × Nat) := do
  let (h, cb, ok) ← parseAt grow L h n s
  if ok then do
    let h ← exec h [.undef, .undef, .assign [.elem cb.n] [.elem cb.root], .delegateArray [.elem (cb.n + 1)]]
    let h ← finishM h cb
    .ok (h, cb.n)
  else .exit 87

/-- `delete functor`: the members in reverse order of declaration. -/
def deleteM (h : Heap) (n : Nat) : Res Heap := exec h [.destroy (n + 1), .destroy n]

/-- `check` on a new object (eni.h 69-75). -/
def checkM {S} (O : OpM S) (h : Heap) (n : Nat) : Res (S × Bool) := do
  let v ← readAt h ⟨0, n⟩
  if v.ty = .arr then O.parse.runM h v else .ub .badUnion

/-- `OP_gas(char*)` (eni.h 17-25). -/
def gasAt {S} (grow : Nat → Bool) (L : Json.Layout) (O : OpM S) (l : Left) (s : Bytes) : Res (Left × Ret Nat) := do
  let (h, n) ← constructAt grow L l.h l.n (cstr s)
  let gas : Res Nat := do
    let (st, b) ← checkM O h n
    if b then O.gas st else .ok 1500
  match gas with
  | .ok g => do
    let h ← deleteM h n
    .ok (⟨h, l.blocks + 1, n + 2⟩, .value g)
  | .throw e => .ok (⟨h, l.blocks + 1, n + 2⟩, .thrown e)
  | .ub u => .ub u
  | .diverge => .diverge
  | .exit c => .exit c

/-- `OP_run(char*)` (eni.h 27-33), `start` (56-66). -/
def runAt {S} (grow : Nat → Bool) (L : Json.Layout) (O : OpM S) (l : Left) (s : Bytes) : Res (Left × Ret (Option Bytes)) := do
  let (h, n) ← constructAt grow L l.h l.n (cstr s)
  match checkM O h n with
  | .ok (_, false) => do
    let h ← deleteM h n
    .ok (⟨h, l.blocks, n + 2⟩, .value none)
  | .ok (st, true) =>
    let outs := (O.run st).1
    let h ← emplaceAll h (n + 1) (n + 2) outs
    match (O.run st).2 with
    | .ok false => do
      let h ← deleteM h n
      .ok (⟨h, l.blocks + outs.length, n + 2 + outs.length⟩, .value none)
    | .ok true => do
      let t ← printRet h (n + 1)
      let h ← deleteM h n
      .ok (⟨h, l.blocks + outs.length + 1, n + 2 + outs.length⟩, .value (some (cstr t)))
    | .throw e => .ok (⟨h, l.blocks + outs.length + 1, n + 2 + outs.length⟩, .thrown e)
    | .ub u => .ub u
    | .diverge => .diverge
    | .exit c => .exit c
  | .throw e => .ok (⟨h, l.blocks + 1, n + 2⟩, .thrown e)
  | .ub u => .ub u
  | .diverge => .diverge
  | .exit c => .exit c

/-- The first call in a process. -/
def gasM {S} (grow : Nat → Bool) (L : Json.Layout) (O : OpM S) (s : Bytes) : Res (Left × Ret Nat) := gasAt grow L O Left.init s

/-- The first call in a process. -/
def runM {S} (grow : Nat → Bool) (L : Json.Layout) (O : OpM S) (s : Bytes) : Res (Left × Ret (Option Bytes)) := runAt grow L O Left.init s

/-- A call that a process makes: `OP_gas` or `OP_run` of some operation. -/
structure Call where
  S : Type
  op : OpM S
  gas : Bool
  arg : Bytes

/-- What the process gets from a call. -/
inductive Out where
  | gas (r : Ret Nat)
  | text (r : Ret (Option Bytes))
  deriving DecidableEq, Repr

/-- One call. -/
def callAt (grow : Nat → Bool) (L : Json.Layout) (l : Left) (c : Call) : Res (Left × Out) :=
  if c.gas then do
    let (l, r) ← gasAt grow L c.op l c.arg
    .ok (l, .gas r)
  else do
    let (l, r) ← runAt grow L c.op l c.arg
    .ok (l, .text r)

/-- Calls in the same process, one after the other. The process catches exceptions and does not release what it gets. -/
def session (grow : Nat → Bool) (L : Json.Layout) (l : Left) : List Call → Res (Left × List Out)
  | [] => .ok (l, [])
  | c :: cs => do
    let (l, o) ← callAt grow L l c
    let (l, os) ← session grow L l cs
    .ok (l, o :: os)

/-- The hooks of an operation on arguments that are pure data, for comparison with Model/EniBase. -/
def fetchV (v : Value) : Path → Res Value
  | [] => .ok v
  | .elem i :: ps =>
    match v with
    | .arr vs =>
      match vs[i]? with
      | some w => fetchV w ps
      | none => .throw .invalidVectorIndex
    | _ => .ub .badUnion
  | .mem k :: ps =>
    match v with
    | .obj m => do
      let w ← SMap.at_ m k
      fetchV w ps
    | _ => .ub .badUnion

/-- `type()` -/
def tyOf : Value → Ty
  | .undef => .undef
  | .int _ => .int
  | .bool _ => .bool
  | .str _ => .str
  | .arr _ => .arr
  | .obj _ => .obj

/-- A hook reads from pure data. -/
def Rd.runV {α} (v : Value) : Rd α → Res α
  | .done r => r
  | .str p k => do
    match ← fetchV v p with
    | .str s => (k s).runV v
    | _ => .ub .badUnion
  | .int p k => do
    match ← fetchV v p with
    | .int z => (k z).runV v
    | _ => .ub .badUnion
  | .bool p k => do
    match ← fetchV v p with
    | .bool b => (k b).runV v
    | _ => .ub .badUnion
  | .type p k => do
    let w ← fetchV v p
    (k (tyOf w)).runV v
  | .size p k => do
    match ← fetchV v p with
    | .arr vs => (k vs.length).runV v
    | _ => .ub .badUnion

/-- The result as pure data. -/
def Sc.val : Sc → Value
  | .bool b => .bool b
  | .int z => .int z
  | .str s => .str s

/-- The operation in terms of Model/EniBase. -/
def OpM.hooks {S} (O : OpM S) : Base.Hooks S where
  init := O.init
  parse := fun old vs =>
    match O.parse.runV (.arr vs) with
    | .ok (st, b) => (st, .ok b)
    | .throw e => (old, .throw e)
    | .ub u => (old, .ub u)
    | .diverge => (old, .diverge)
    | .exit c => (old, .exit c)
  gas := O.gas
  run := fun st ret => (st, ret ++ (O.run st).1.map Sc.val, (O.run st).2)

/-- `Reverse` (eni_reverse.cpp 9-34). -/
def reverseM : OpM Bytes where
  init := []
  parse := .str [.elem 0] fun s => .done (.ok (s, true))
  gas := fun s => .ok (s.length * 10)
  run := fun s => ([.str s.reverse], .ok true)

end Owner
end Eni
