import Verif.Proofs.ScanCost
import Verif.Proofs.JsonParse
/-! # C97: scanning takes time proportional to the text -/
namespace Eni
namespace Props
open Json

/-- C97, the counting scanner is the scanner of C23 to C32: it decides the same and calls the same callbacks. -/
theorem C97_same (L : Layout) (s : Bytes) : (scanT L s).1 = parseValue L (s.length + 1) ⟨s, []⟩ := value_fst L _ _

/-- C97: whatever the text, the number of looks at a character is at most proportional to the length of the text. The scanner returns, so
nothing is left to count. -/
theorem C97_linear (L : Layout) (s : Bytes) :
    (scanT L s).2 ≤ 64 * s.length + 32 ∧ ((∃ st, (scanT L s).1 = .ok () st) ∨ ∃ e st, (scanT L s).1 = .err e st) := by
  have hp := parseValue_post L (s.length + 1) ⟨s, []⟩ (by simp)
  rw [← C97_same] at hp
  cases hr : (scanT L s).1 with
  | ok u st =>
    have := scan_cost (.inl hr)
    exact ⟨by omega, .inl ⟨st, rfl⟩⟩
  | err x st =>
    have := scan_cost (.inr ⟨x, hr⟩)
    exact ⟨by omega, .inr ⟨x, st, rfl⟩⟩
  | ub u => rw [hr] at hp; exact absurd hp id
  | diverge => rw [hr] at hp; exact absurd hp id

/-- C97, the count is honest: no character is passed without a look. -/
theorem C97_honest (L : Layout) (s : Bytes) (st : PState)
    (h : (scanT L s).1 = .ok () st ∨ ∃ e, (scanT L s).1 = .err e st) : s.length - st.it.length ≤ (scanT L s).2 := (scan_cost h).1

/-- C97, an early error is cheap: what follows it does not matter. -/
theorem C97_rest (L : Layout) (s : Bytes) (st : PState)
    (h : (scanT L s).1 = .ok () st ∨ ∃ e, (scanT L s).1 = .err e st) : (scanT L s).2 ≤ 64 * (s.length - st.it.length) + 32 := (scan_cost h).2

/-- `[ true , -12 ]` takes 83 looks -/
example : (scanT ⟨100, 0, 10⟩ [91, 32, 116, 114, 117, 101, 32, 44, 32, 45, 49, 50, 32, 93]).2 = 83 := by decide +kernel

/-- the exact counts for `"\u0041\n"`, `[⏎⇥␍1]`, `{"a"⏎:⇥false␍}` and `"\u004z\n"` -/
example : (scanT ⟨100, 0, 10⟩ [34, 92, 117, 48, 48, 52, 49, 92, 110, 34]).2 = 45 ∧ (scanT ⟨100, 0, 10⟩ [91, 10, 9, 13, 49, 93]).2 = 59 ∧
    (scanT ⟨100, 0, 10⟩ [123, 34, 97, 34, 10, 58, 9, 102, 97, 108, 115, 101, 13, 125]).2 = 65 ∧
    (scanT ⟨100, 0, 10⟩ [34, 92, 117, 48, 48, 52, 122, 92, 110, 34]).2 = 31 := by decide +kernel

/-- an error in the first character: 28 looks, however long the text -/
example (s : Bytes) (L : Layout) : (scanT L (33 :: s)).2 ≤ 32 := by
  have := C97_rest L (33 :: s) ⟨33 :: s, []⟩ (.inr ⟨.value, by
    rw [C97_same]
    simp [parseValue, parseObject, parseArray, parseString, parseBoolean, parseNumber, skipWs, dropWs, isWs, haveC, error, bind, P.bind, pure,
      parseIntPart, isPosDigit]⟩)
  simpa using this

end Props
end Eni
