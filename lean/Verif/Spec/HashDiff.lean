/-!
# Specification: strings that differ in one character
-/
namespace Eni.Spec

/-- `s` and `t` have the same length and differ at exactly one position. -/
def DiffOne (s t : List UInt8) : Prop := ∃ u v a b, a ≠ b ∧ s = u ++ a :: v ∧ t = u ++ b :: v

end Eni.Spec
