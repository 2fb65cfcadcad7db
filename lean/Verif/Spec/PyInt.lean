import Verif.Model.StringMap
/-!
# Texts that Python's `int` accepts

The grammar of the language reference: white space, a sign, `digit (["_"] digit)*`, white space.
-/
namespace Eni.Spec

/-- A decimal digit and its value. -/
def DigitIs (c : UInt8) (v : Nat) : Prop := v < 10 ∧ c.toNat = 48 + v

/-- `digit (["_"] digit)*` and its value. -/
inductive PyDigits : Bytes → Nat → Prop
  | one {c v} : DigitIs c v → PyDigits [c] v
  | digit {b n c v} : PyDigits b n → DigitIs c v → PyDigits (b ++ [c]) (10 * n + v)
  | under {b n c v} : PyDigits b n → DigitIs c v → PyDigits (b ++ [95, c]) (10 * n + v)

/-- White space of ASCII. -/
def PySpace (w : Bytes) : Prop := ∀ c ∈ w, c ∈ [(32 : UInt8), 9, 10, 11, 12, 13]

/-- The text of an integer. -/
def PyIntText (t : Bytes) (z : Int) : Prop :=
  ∃ w₁ b w₂ n, PySpace w₁ ∧ PySpace w₂ ∧ PyDigits b n ∧
    ((t = w₁ ++ b ++ w₂ ∧ z = n) ∨ (t = w₁ ++ [43] ++ b ++ w₂ ∧ z = n) ∨ (t = w₁ ++ [45] ++ b ++ w₂ ∧ z = -n))

end Eni.Spec
