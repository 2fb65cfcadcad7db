/-!
# Specification of the ES signature

What the documentation of `StringHasher<ES>` (StringHasher.h 261-273) promises: one bit per letter (ignoring case), one for
digits, one for underscores, and the number of dots.
-/
namespace Eni.Spec

/-- The class of a character: letters ignoring case 0-25, underscore 26, digits 27. -/
def cls (c : UInt8) : Option Nat :=
  if 97 ≤ c.toNat ∧ c.toNat ≤ 122 then some (c.toNat - 97)
  else if 65 ≤ c.toNat ∧ c.toNat ≤ 90 then some (c.toNat - 65)
  else if c.toNat = 95 then some 26
  else if 48 ≤ c.toNat ∧ c.toNat ≤ 57 then some 27
  else none

/-- Every class of the rule occurs in the text. -/
def Covers (rule text : List UInt8) : Prop := ∀ c ∈ rule, cls c ≠ none → ∃ c' ∈ text, cls c' = cls c

/-- The number of dots. -/
def dots (s : List UInt8) : Nat := s.count 46

/-- 7-bit characters. -/
def Ascii (s : List UInt8) : Prop := ∀ c ∈ s, c.toNat < 128

end Eni.Spec
