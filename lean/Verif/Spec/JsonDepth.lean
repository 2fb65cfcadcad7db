import Verif.Spec.Json
/-!
# Specification: nesting of JSON values
-/
namespace Eni.Spec

/-- `Within n j`: the value has at most `n` levels; a number, boolean, string, empty array or empty object has one. -/
inductive Within : Nat → JV → Prop
  | int {n z} : Within (n + 1) (.int z)
  | bool {n b} : Within (n + 1) (.bool b)
  | str {n s} : Within (n + 1) (.str s)
  | arr {n js} : (∀ j ∈ js, Within n j) → Within (n + 1) (.arr js)
  | obj {n ms} : (∀ k j, (k, j) ∈ ms → Within n j) → Within (n + 1) (.obj ms)

/-- The number of opening brackets and braces in a text. -/
def opens (s : Bytes) : Nat := s.countP fun c => c = 91 ∨ c = 123

/-- `n` arrays inside each other: `[[...]]`. -/
def nested : Nat → JV
  | 0 => .arr []
  | n + 1 => .arr [nested n]

/-- The text of `nested n`. -/
def nestedText (n : Nat) : Bytes := List.replicate (n + 1) 91 ++ List.replicate (n + 1) 93

end Eni.Spec
