import Verif.Model.VectorThrow
import Verif.Spec.VectorObj
/-!
# Specification of a vector whose elements may refuse to be copied

Sequences only. `copies` says how many copies an operation makes, `left` what the sequence is when one of them fails.
-/
namespace Eni.Spec
open OThr
variable {α : Type}

/-- The first of the `w` copies beginning with number `n` that fails. -/
def firstFault (boom : Nat → Bool) (n : Nat) : Nat → Option Nat
  | 0 => none
  | w + 1 => if boom n then some 0 else (firstFault boom (n + 1) w).map (· + 1)

/-- Number of copies an operation makes. -/
def copies (xs : List α) : OVec.Op α → Nat
  | .pushBack _ => 1
  | .emplaceBack _ => 1
  | .popBack => 1
  | .insert i as => if i ≤ xs.length then as.length + (xs.length - i) + as.length else 0
  | .erase f l => if f < l ∧ l < xs.length then xs.length - l else 0
  | .resize n _ => n - xs.length
  | .assign as => (as.length - xs.length) + as.length
  | _ => 0

/-- The sequence when `j` copies of the operation have succeeded and the next one fails: `resize` leaves everything; `assign` has either done nothing or
written some of the new values over the resized sequence; `insert` has either done nothing, or added default values at the end and moved `j - |as|` of
the last elements, or moved all and written some of the new values; `erase` has moved some elements down; `pop_back` has lost its element. (`push_back`
and `emplace_back` are treated separately.) -/
def left (dflt : α) (xs : List α) (j : Nat) : OVec.Op α → List α
  | .popBack => xs.dropLast
  | .insert i as =>
    if j < as.length then xs
    else if j < as.length + (xs.length - i) then
      (xs ++ List.replicate as.length dflt).take (xs.length + as.length - (j - as.length)) ++ xs.drop (xs.length - (j - as.length))
    else
      xs.take i ++ as.take (j - as.length - (xs.length - i)) ++
        ((xs ++ List.replicate as.length dflt).take (i + as.length)).drop (i + (j - as.length - (xs.length - i))) ++ xs.drop i
  | .erase f l => xs.take f ++ (xs.drop l).take j ++ xs.drop (f + j)
  | .assign as =>
    if j < as.length - xs.length then xs
    else as.take (j - (as.length - xs.length)) ++
      (xs.take as.length ++ List.replicate (as.length - xs.length) dflt).drop (j - (as.length - xs.length))
  | _ => xs

/-- One operation: the sequence, the number of copies tried, the report. -/
def thrStep (dflt : α) (boom : Nat → Bool) (xs : List α) (n : Nat) (op : OVec.Op α) : List α × Nat × TRet α :=
  match firstFault boom n (copies xs op) with
  | none => (after dflt xs op, n + copies xs op, .ret (reported dflt xs op))
  | some j => (left dflt xs j op, n + j + 1, .thrown)

/-- A history. -/
def thrRun (dflt : α) (boom : Nat → Bool) : List α → Nat → List (OVec.Op α) → List α × Nat × List (TRet α)
  | xs, n, [] => (xs, n, [])
  | xs, n, op :: ops =>
    let s := thrStep dflt boom xs n op
    let t := thrRun dflt boom s.1 s.2.1 ops
    (t.1, t.2.1, s.2.2 :: t.2.2)

/-- `push_back` and `emplace_back`. -/
def IsPush : OVec.Op α → Prop
  | .pushBack _ => True
  | .emplaceBack _ => True
  | _ => False

/-- Every call meets the precondition of the interface and the size limit, and no `push_back` or `emplace_back` fails. -/
def ThrPres (sz : Nat) (dflt : α) (boom : Nat → Bool) : List α → Nat → List (OVec.Op α) → Prop
  | _, _, [] => True
  | xs, n, op :: ops => VPre sz (xs, []) (seqOp op) ∧ (IsPush op → boom n = false) ∧
    ThrPres sz dflt boom (thrStep dflt boom xs n op).1 (thrStep dflt boom xs n op).2.1 ops

/-- No call asks for more than `r` elements, the number the vector was constructed with (0 after `clear`). -/
def ThrNeverAbove (dflt : α) (boom : Nat → Bool) : Nat → List α → Nat → List (OVec.Op α) → Prop
  | _, _, _, [] => True
  | r, xs, n, op :: ops => (after dflt xs op).length ≤ r ∧
    ThrNeverAbove dflt boom (match op with | .clear => 0 | _ => r) (thrStep dflt boom xs n op).1 (thrStep dflt boom xs n op).2.1 ops

/-- The values an operation is given. -/
def given : OVec.Op α → List α
  | .pushBack a => [a]
  | .emplaceBack a => [a]
  | .insert _ as => as
  | .resize _ a => [a]
  | .assign as => as
  | _ => []

end Eni.Spec
