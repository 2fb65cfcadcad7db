import Verif.Model.PrintStream
import Verif.Spec.Hex
/-! What printing to a stream should do (C122). -/
namespace Eni.Spec
open Ostream

/-- C122 for one stream and one value: the text of the value is appended and nothing else about the stream changes. -/
def AppendsText (st : Stream) (v : Value) : Prop := printTo st v = ({ st with out := st.out ++ Value.print v }, true)

/-- No integer occurs in the value. -/
inductive NoNumber : Value → Prop
  | undef : NoNumber .undef
  | bool {b} : NoNumber (.bool b)
  | str {s} : NoNumber (.str s)
  | arr {vs} : (∀ v ∈ vs, NoNumber v) → NoNumber (.arr vs)
  | obj {m} : (∀ kv ∈ SMap.bindings m, NoNumber kv.2) → NoNumber (.obj m)

/-- How much of the text of a value is written by the first `<<`; an undefined value has no text. -/
def firstPiece : Value → Option Nat
  | .undef => none
  | .int z => some (Value.print (.int z)).length
  | .bool b => some (if b then 4 else 5)
  | _ => some 1

/-- Text filled up after the first piece or before it. -/
def filled (left : Bool) (width : Nat) (fill : UInt8) (v : Value) : Bytes :=
  match firstPiece v with
  | none => []
  | some n =>
    if left then (Value.print v).take n ++ List.replicate (width - n) fill ++ (Value.print v).drop n
    else List.replicate (width - n) fill ++ Value.print v

/-- `t` is the number `n` with the given radix: digits below the radix, letters in the chosen case, the most significant digit first. -/
inductive Digits (radix : Nat) (upper : Bool) : Bytes → Nat → Prop
  | one {c d} : Hex.digitVal c = some d → d < radix → (10 ≤ d → (c ≤ 70 ↔ upper = true)) → Digits radix upper [c] d
  | snoc {t n c d} : Digits radix upper t n → 0 < n → Hex.digitVal c = some d → d < radix → (10 ≤ d → (c ≤ 70 ↔ upper = true)) →
      Digits radix upper (t ++ [c]) (n * radix + d)

end Eni.Spec
