import Verif.Model.Allocator
/-!
# An allocator should hand out arrays

The program is written in the language `AOp`; what it should do is described with arrays, without bytes and addresses.
-/
namespace Eni.Spec
open Alloc

/-- What a program got from `allocate`: the null pointer, an array of `n` places, or an array given back. -/
inductive Arr (α : Type) where
  | null
  | arr (n : Nat) (f : Nat → Option α)
  | gone

variable {α : Type}

/-- What a step should do with the arrays. `none`: the program is at fault (an index out of range, an object that is not there, an array given back twice). -/
def arrStep (dflt : α) (vs : List (Arr α)) : AOp α → Option (List (Arr α) × ARep α)
  | .allocate n grant => some (vs ++ [if grant then .arr n fun _ => none else .null], .null !grant)
  | .construct x i a =>
    match vs[x]? with
    | some (.arr n f) => if i < n then some (vs.set x (.arr n fun j => if j = i then some a else f j), .done) else none
    | _ => none
  | .construct0 x i =>
    match vs[x]? with
    | some (.arr n f) => if i < n then some (vs.set x (.arr n fun j => if j = i then some dflt else f j), .done) else none
    | _ => none
  | .get x i =>
    match vs[x]? with
    | some (.arr n f) =>
      if i < n then
        match f i with
        | some a => some (vs, .val a)
        | none => none
      else none
    | _ => none
  | .destroy x i =>
    match vs[x]? with
    | some (.arr n f) =>
      if i < n then
        match f i with
        | some _ => some (vs.set x (.arr n fun j => if j = i then none else f j), .done)
        | none => none
      else none
    | _ => none
  | .deallocate x =>
    match vs[x]? with
    | some .null => some (vs, .done)
    | some (.arr _ _) => some (vs.set x .gone, .done)
    | _ => none

/-- A whole program. -/
def arrRun (dflt : α) (vs : List (Arr α)) : List (AOp α) → Option (List (Arr α) × List (ARep α))
  | [] => some (vs, [])
  | op :: ops =>
    match arrStep dflt vs op with
    | none => none
    | some (vs, r) =>
      match arrRun dflt vs ops with
      | none => none
      | some (vs, rs) => some (vs, r :: rs)

/-- Arrays not given back. -/
def Arr.held : List (Arr α) → Nat
  | [] => 0
  | .arr _ _ :: vs => Arr.held vs + 1
  | _ :: vs => Arr.held vs

/-- No request for more than `k` objects. -/
def AtMostAtOnce (k : Nat) (ops : List (AOp α)) : Prop := ∀ n grant, AOp.allocate n grant ∈ ops → n ≤ k

/-- Blocks that are not released. -/
def heldBlocks (m : Mem α) : Nat := ((List.range m.next).filter fun b => (m.size b).isSome).length

end Eni.Spec
