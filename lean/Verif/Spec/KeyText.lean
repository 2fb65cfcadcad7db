import Verif.Spec.Tokens
/-!
# Texts where a string is expected

Independent of parser and tokenizer: what a text stands for if a string is expected, and the text around a token.
-/
namespace Eni.Spec
open JsonTool (Tok)

/-- After white space, the text begins with a JSON text for `j`; anything may follow. -/
def Begins (k : Bytes) (j : JV) : Prop := ∃ w t r, k = w ++ (t ++ r) ∧ WS w ∧ JText t j

/-- What a text stands for where a string is expected: a string if it begins with one, the empty string if it begins with no JSON text at
all, and nothing defined if it begins with another JSON text. -/
inductive ReadsAs (k : Bytes) : Option Bytes → Prop
  | str {s} : Begins k (.str s) → ReadsAs k (some s)
  | nothing : (∀ j, ¬ Begins k j) → ReadsAs k (some [])
  | other {j} : Begins k j → (∀ s, j ≠ .str s) → ReadsAs k none

/-- The characters from the one before position `a` up to the one at position `b`, of data that ends in a NUL. -/
def Around (data : Bytes) (a b : Int) (k : Bytes) : Prop :=
  ∃ p r, data ++ [0] = p ++ (k ++ r) ∧ (p.length : Int) + 1 = a ∧ (p.length : Int) + k.length = b + 1

/-- The members of a list two by two; an odd one is left out. -/
def pairs {α : Type} : List α → List (α × α)
  | k :: v :: ts => (k, v) :: pairs ts
  | _ => []

/-- The token can be read as the name `s`. -/
def Names (data : Bytes) (t : Tok) (s : Bytes) : Prop := ∃ k, Around data t.start t.stop k ∧ ReadsAs k (some s)

end Eni.Spec
