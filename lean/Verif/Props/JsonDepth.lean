import Verif.Proofs.JsonDepth
import Verif.Props.Json
/-!
# Property C76: the stack needed for parsing

`parse_value` is recursive (Parser.h 60-67, 124-165). `parseValue L n` is the parser with room for `n` nested activations of
`parse_value`; one more is the outcome `diverge`.
-/
namespace Eni.Props
open Spec Json

/-- C76, what the parser needs: for a text of the grammar `n` activations are enough exactly if the value has at most `n` levels; with
less room the parser does not come to an end. -/
theorem C76_levels_partial (L : Layout) (hL : L.Good) {t r : Bytes} {j : JV} (ht : JText t j) (hr : (∃ z, j = .int z) → NoDigit r) (n : Nat) :
    (Within n j → ∃ ev, parseValue L n ⟨t ++ r, []⟩ = .ok () ⟨r, ev⟩) ∧ (¬ Within n j → parseValue L n ⟨t ++ r, []⟩ = .diverge) := by
  rcases exact_depth L ht [] r [] n (by simp [WS]) hr (.inl hL) with ⟨h, es, _, h2⟩ | ⟨h, h2⟩
  · exact ⟨fun _ => ⟨_, h2⟩, fun h' => absurd h h'⟩
  · exact ⟨fun h' => absurd h' h, fun _ => h2⟩

/-- C76, for any text, well-formed or not: room for one activation more than there are opening brackets and braces is enough. -/
theorem C76_brackets_partial (L : Layout) (s : Bytes) (n : Nat) (h : opens s < n) :
    parseValue L n ⟨s, []⟩ = parseValue L (s.length + 1) ⟨s, []⟩ ∧ parseValue L n ⟨s, []⟩ ≠ .diverge := by
  have key : ∀ m, opens s < m → parseValue L m ⟨s, []⟩ = parseValue L (s.length + 1) ⟨s, []⟩ := by
    intro m hm
    have hl := opens_length s
    rw [parseValue_opens L ⟨s, []⟩ m hm (s.length + 1), parseValue_opens L ⟨s, []⟩ (s.length + 1) (by simp only; omega) m, Nat.add_comm]
  refine ⟨key n h, ?_⟩
  rw [key n h]
  rcases C23_scanner_total L s with ⟨st, h⟩ | ⟨e, st, h⟩ <;> rw [h] <;> simp

example := C76_brackets_partial ⟨100, 0, 50⟩ [91, 91, 49, 93, 93] 3 (by decide)

/-- C76 is false: no amount of stack is enough for all texts; `n + 1` brackets, closed or not, need more than `n` activations. -/
theorem C76_bounded_false (L : Layout) (n : Nat) (r : Bytes) : JText (nestedText n) (nested n) ∧ (nestedText n).length = 2 * n + 2 ∧
    parseValue L n ⟨nestedText n ++ r, []⟩ = .diverge ∧ parseValue L n ⟨List.replicate n 91, []⟩ = .diverge := by
  refine ⟨nested_text n, by simp [nestedText]; omega, ?_, ?_⟩
  · rcases exact_depth L (nested_text n) [] r [] n (by simp [WS]) (by cases n <;> simp [nested]) (.inr (nested_boolFree n)) with ⟨h, _⟩ | ⟨_, h⟩
    · exact absurd ((nested_within n n).mp h) (Nat.lt_irrefl n)
    · exact h
  · exact open_brackets L n []

/-- `[[1]]` needs three activations -/
example : (∃ ev, parseValue ⟨100, 0, 50⟩ 3 ⟨[91, 91, 49, 93, 93], []⟩ = .ok () ⟨[], ev⟩) ∧ parseValue ⟨100, 0, 50⟩ 2 ⟨[91, 91, 49, 93, 93], []⟩ = .diverge := by
  have n1 : JText [49] (.int 1) := by
    have := JText.int (.nonneg (t := [49]) (n := 1) ⟨by decide, by simp [Digit], by decide, by decide⟩)
    rwa [wrap256_of_lt (by decide)] at this
  have hws : WS [] := by simp [WS]
  have ht : JText [91, 91, 49, 93, 93] (.arr [.arr [.int 1]]) := .arr (.one hws (.arr (.one hws n1 hws)) hws)
  have h := C76_levels_partial ⟨100, 0, 50⟩ (by constructor <;> decide) (r := []) ht (by simp)
  have h2 := (h 2).2 (by simp [within_arr, within_zero])
  refine ⟨by simpa using (h 3).1 (.arr (by simpa using .arr (by simpa using .int))), by simpa using h2⟩

end Eni.Props
