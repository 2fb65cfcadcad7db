import Verif.Model.EniMem
import Verif.Spec.ParserMem
/-!
# What a call of an entry point should do, and what it leaves in memory

Arguments are JSON values (`JV`), hooks are programs that read them (`Rd`, `OpM`). Only these languages of programs are taken from the model.
-/
namespace Eni.Spec
open Owner

/-- The part of a JSON value that a path leads to. An index or key that is not there makes the access throw; using a value of one type as another is undefined. -/
def JV.part (j : JV) : Path → Res JV
  | [] => .ok j
  | .elem i :: ps =>
    match j with
    | .arr js =>
      match js[i]? with
      | some x => x.part ps
      | none => .throw .invalidVectorIndex
    | _ => .ub .badUnion
  | .mem k :: ps =>
    match j with
    | .obj ms =>
      match lastMember ms k with
      | some x => x.part ps
      | none => .throw .invalidStringMapKey
    | _ => .ub .badUnion

/-- The type of a JSON value. -/
def JV.ty : JV → Ty
  | .int _ => .int
  | .bool _ => .bool
  | .str _ => .str
  | .arr _ => .arr
  | .obj _ => .obj

/-- What a hook makes of the arguments `j`. -/
def reads {α} (j : JV) : Rd α → Res α
  | .done r => r
  | .str p k => do
    match ← j.part p with
    | .str s => reads j (k s)
    | _ => .ub .badUnion
  | .int p k => do
    match ← j.part p with
    | .int z => reads j (k z)
    | _ => .ub .badUnion
  | .bool p k => do
    match ← j.part p with
    | .bool b => reads j (k b)
    | _ => .ub .badUnion
  | .type p k => do
    let x ← j.part p
    reads j (k x.ty)
  | .size p k => do
    match ← j.part p with
    | .arr js => reads j (k js.length)
    | _ => .ub .badUnion

/-- The JSON value of a result. -/
def scJV : Sc → JV
  | .bool b => .bool b
  | .int z => .int z
  | .str s => .str s

/-- What the caller of `OP_run` should see for the arguments `j`: `outs` printed as a JSON array if parse and run hook accept, the null pointer if one of
them does not, and what the hooks throw. -/
def expectRun {S} (O : OpM S) (j : JV) : Res (Ret (Option (List Sc))) :=
  match reads j O.parse with
  | .ok (_, false) => .ok (.value none)
  | .ok (st, true) =>
    match O.run st with
    | (_, .ok false) => .ok (.value none)
    | (outs, .ok true) => .ok (.value (some outs))
    | (_, .throw e) => .ok (.thrown e)
    | (_, .ub u) => .ub u
    | (_, .diverge) => .diverge
    | (_, .exit c) => .exit c
  | .throw e => .ok (.thrown e)
  | .ub u => .ub u
  | .diverge => .diverge
  | .exit c => .exit c

/-- What the caller of `OP_gas` should see. -/
def expectGas {S} (O : OpM S) (j : JV) : Res (Ret Nat) :=
  match reads j O.parse >>= fun x => if x.2 then O.gas x.1 else .ok 1500 with
  | .ok g => .ok (.value g)
  | .throw e => .ok (.thrown e)
  | .ub u => .ub u
  | .diverge => .diverge
  | .exit c => .exit c

/-- The same outcome with another form of the returned value. -/
def retMap {α β} (f : α → β) : Ret α → Ret β
  | .value a => .value (f a)
  | .thrown e => .thrown e

/-- The form in which `OP_run` hands the results to its caller. -/
def asText (o : Option (List Sc)) : Option Bytes := o.map fun outs => Value.print (.arr (outs.map Sc.val))

/-- An exception that leaves the entry point. -/
def raise {α β} (f : α → β) : Res (Ret α) → Res β
  | .ok (.value a) => .ok (f a)
  | .ok (.thrown e) => .throw e
  | .throw e => .throw e
  | .ub u => .ub u
  | .diverge => .diverge
  | .exit c => .exit c

/-- Heap objects of a list of results. -/
def scCells (outs : List Sc) : Nat := outs.countP fun s => match s with | .bool _ => false | _ => true

/-- Everything a call allocated and did not release, apart from what the caller got: heap objects of values, and other blocks. -/
def Left.total (l : Owner.Left) : Nat := live l.h - 1 + l.blocks

/-- Heap objects that an argument list leaves behind when an operation object is created and deleted (C91). -/
def argLoss (j : JV) : Nat := j.lost + 2 * j.tree.kept

end Eni.Spec
