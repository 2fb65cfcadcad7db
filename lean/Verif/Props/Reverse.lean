import Verif.Model.Reverse
import Verif.Props.EniBase
/-!
# Properties of the reverse operation: C42
-/
namespace Eni.Props
open Spec Base Json

/-- An array of strings, written in any way the grammar allows and possibly followed by something else, is read as these strings. -/
theorem parse_strs (L : Layout) {w t r : Bytes} (ss : List Bytes) (hw : WS w) (ht : JText t (.arr (ss.map .str))) (h0 : 0 ∉ w ++ (t ++ r)) :
    parse L (cstr (w ++ (t ++ r))) = .ok ⟨true, .arr (ss.map .str)⟩ := by
  obtain ⟨hs, hf, _⟩ := shows_strs ss
  rw [cstr_of_notMem h0]
  obtain ⟨x, h1, _, h2⟩ := parse_text (L := L) hw ht (by rintro ⟨z, hz⟩; cases hz) (.inr (.arr (by
    simp only [List.mem_map]
    rintro j ⟨a, _, rfl⟩
    exact .str))) (.inl (ObjFree.noMembers hf))
  rw [h1, shows_unique hs hf x (h2 (NoMembers.shortKeys (ObjFree.noMembers hf)))]

/-- The printed text of an array of strings denotes it and contains no NUL. -/
theorem print_strs (ss : List Bytes) : JText (Value.print (.arr (ss.map .str))) (.arr (ss.map .str)) ∧ 0 ∉ Value.print (.arr (ss.map .str)) := by
  obtain ⟨hs, hf, hr⟩ := shows_strs ss
  refine ⟨print_text hs (ObjFree.noMembers hf) hr, fun h => ?_⟩
  have := C62_object_free_partial hs hf _ h
  revert this
  decide

/-- C42, for every text that denotes an array beginning with the string `s`: the result and the gas. -/
theorem C42_reverse (L : Layout) {w t r : Bytes} (s : Bytes) (more : List Bytes) (hw : WS w) (ht : JText t (.arr ((s :: more).map .str)))
    (h0 : 0 ∉ w ++ (t ++ r)) :
    opRun Reverse.op L (w ++ (t ++ r)) = .ok (some (Value.print (.arr [.str s.reverse]))) ∧ opGas Reverse.op L (w ++ (t ++ r)) = .ok (10 * s.length) := by
  have hp := parse_strs L (s :: more) hw ht h0
  obtain ⟨hs, hf, _⟩ := shows_strs [s.reverse]
  constructor
  · exact C38_entry Reverse.op L _ _ hp s s rfl [.str s.reverse] rfl _ hs hf
  · simp only [opGas, construct_of hp, Res.ok_bind]
    rw [Nat.mul_comm]
    rfl

/-- ` ["x"]!` -/
example (L : Layout) := C42_reverse L (w := [32]) (t := [91, 34, 120, 34, 93]) (r := [33]) [120] [] (by simp [WS])
  (.arr (Elems.one (w := []) (w' := []) (by simp [WS]) (.str (.raw (by decide) (by decide) .nil)) (by simp [WS]))) (by decide)

/-- C42, for the text printed by the library itself, and the round trip. -/
theorem C42_involution (L L' : Layout) (s : Bytes) :
    opRun Reverse.op L (Value.print (.arr [.str s])) = .ok (some (Value.print (.arr [.str s.reverse]))) ∧
    opRun Reverse.op L' (Value.print (.arr [.str s.reverse])) = .ok (some (Value.print (.arr [.str s]))) ∧
    opGas Reverse.op L (Value.print (.arr [.str s])) = .ok (10 * s.length) := by
  have key : ∀ L s, opRun Reverse.op L (Value.print (.arr [.str s])) = .ok (some (Value.print (.arr [.str s.reverse]))) ∧
      opGas Reverse.op L (Value.print (.arr [.str s])) = .ok (10 * s.length) := by
    intro L s
    obtain ⟨ht, h0⟩ := print_strs [s]
    have := C42_reverse L (w := []) (r := []) s [] (by simp [WS]) ht (by simpa using h0)
    simpa using this
  refine ⟨(key L s).1, ?_, (key L s).2⟩
  have := (key L' s.reverse).1
  rwa [List.reverse_reverse] at this

/-- ` ["ab" , "x"]!` is read as the array of `ab` and `x`. -/
example : opRun Reverse.op ⟨0, 5, 9⟩ ([32] ++ ([91, 34, 97, 98, 34, 32, 44, 32, 34, 120, 34, 93] ++ [33])) = .ok (some [91, 34, 98, 97, 34, 93]) := by
  decide +kernel

end Eni.Props
