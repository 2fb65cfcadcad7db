import Verif.Proofs.PrintCount
import Verif.Props.Json
import Verif.Proofs.OpsMem
/-!
# C106: printing a value of any size
-/
namespace Eni.Props
open Spec Json Value

/-- C106, the part that holds: if no array in the value has 2^31 elements or more, printing is defined and gives the text of C30. -/
theorem C106_print_partial (v : Value) (h : ArraysBelow (2 ^ 31) v) : printR v = .ok (print v) :=
  ((PrintCount.printR_iff v).resolve_right fun h' => h'.1 h).2

/-- C106 is false of the code: an array of 2^31 elements or more, anywhere in the value, makes the counter of `Array::print` overflow. -/
theorem C106_print_false (v : Value) (h : ¬ ArraysBelow (2 ^ 31) v) : printR v = .ub .overflow :=
  ((PrintCount.printR_iff v).resolve_left fun h' => h h'.1).2

/-- C106, values from the parser: whatever it accepts can be printed (keys of at most 65535 bytes, see C12). -/
theorem C106_parsed_partial (L : Layout) (s : Bytes) (hlen : s.length ≤ 1073643498) (x : Value) (h : parse L s = .ok ⟨true, x⟩)
    (hk : ∀ w t r j, s = w ++ (t ++ r) → JText t j → ShortKeys j) : printR x = .ok (print x) := by
  obtain ⟨w, t, r, j, e, -, ht, hs⟩ := C24_sound L s hlen x h
  have hl : t.length ≤ 1073643498 := by rw [e] at hlen; simp at hlen; omega
  have hb := PrintCount.shows_below (hs (hk w t r j e ht)) (PrintCount.jtext_upTo _ ht hl)
  refine C106_print_partial x ?_
  have mono : ∀ {a b : Nat} {v : Value}, a ≤ b → ArraysBelow a v → ArraysBelow b v := by
    intro a b v hab hv
    induction hv with
    | undef => exact .undef
    | int => exact .int
    | bool => exact .bool
    | str => exact .str
    | arr h1 _ ih => exact .arr (by omega) ih
    | obj _ ih => exact .obj ih
  exact mono (by decide) hb

example : printR (.arr [.bool true, .arr [.int 5, .undef]]) = .ok [91, 116, 114, 117, 101, 44, 91, 53, 44, 93, 93] := by
  rw [C106_print_partial _ (.arr (by decide) (by
    intro v hv
    simp at hv
    rcases hv with rfl | rfl
    · exact .bool
    · exact .arr (by decide) (by intro v hv; simp at hv; rcases hv with rfl | rfl; exacts [.int, .undef])))]
  rw [print_arr]
  simp only [List.map_cons, List.map_nil, print_arr]
  simp [print, printElems]
  decide +kernel
example : printR (.arr [.bool true, .arr (List.replicate (2 ^ 31) (.int 5))]) = .ub .overflow := by
  refine C106_print_false _ ?_
  intro h
  cases h with
  | arr _ h =>
    have h2 := h (.arr (List.replicate (2 ^ 31) (.int 5))) (List.mem_cons_of_mem _ (List.mem_singleton.mpr rfl))
    cases h2 with
    | arr h3 _ => rw [List.length_replicate] at h3; exact absurd h3 (Nat.lt_irrefl _)
/-- `{"a":[true,-12]}` -/
example (x : Value) (h : parse ⟨100, 0, 50⟩ [123, 34, 97, 34, 58, 91, 116, 114, 117, 101, 44, 45, 49, 50, 93, 125] = .ok ⟨true, x⟩) : printR x = .ok (print x) := by
  refine C106_parsed_partial ⟨100, 0, 50⟩ _ (by decide) x h fun w t r j e ht => Owner.short_text ht ?_
  have := congrArg List.length e
  simp at this
  omega

end Eni.Props
