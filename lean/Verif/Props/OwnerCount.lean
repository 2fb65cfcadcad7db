import Verif.Proofs.ParserMem
import Verif.Spec.OwnerCount
/-!
# Numbers of heap objects: C63
-/
namespace Eni.Props
open Spec Owner

/-- C63, exact amounts: after any permitted program the number of heap objects in use is the number of those that the variables consist of plus
those that the program lost; `hp.next` counts all that were ever allocated. -/
theorem C63_exact_partial (ops : List Op) (t : Tree) (rs : List Rep) (h : pruns (.arr []) ops = some (t, rs)) :
    ∃ hp, run Heap.init ops = .ok (hp, rs) ∧ hp.next = 1 + total allocated (.arr []) ops ∧ live hp = t.cells + total lostBy (.arr []) ops := by
  obtain ⟨hp, e, _, h1, h2⟩ := run_ran Inv.init h
  refine ⟨hp, e, h1, ?_⟩
  have := live_init
  simp only [Tree.cells, Tree.cellsAll] at h2
  omega

/-- C63, when nothing stays behind: a program that ends with every variable destroyed leaves heap objects behind exactly if some operation in it lost one. -/
theorem C63_clean_iff_partial (ops : List Op) (ts : List Tree) (rs : List Rep) (h : pruns (.arr []) ops = some (.arr ts, rs)) (hu : ∀ x ∈ ts, x = .undef) :
    ∃ hp, run Heap.init ops = .ok (hp, rs) ∧ live hp = 1 + total lostBy (.arr []) ops := by
  obtain ⟨hp, e, _, h2⟩ := C63_exact_partial ops _ rs h
  refine ⟨hp, e, ?_⟩
  rw [h2, Tree.cells, cellsAll_undef hu]

/-- `[[7]]` built and destroyed: 3 heap objects are allocated and 3 more by copying its parts; 4 stay behind. -/
example : ∃ ts rs, pruns (.arr []) [.int 7, .array, .pushBack [.elem 1] [.elem 0], .array, .pushBack [.elem 2] [.elem 1], .destroy 2, .destroy 1, .destroy 0] =
      some (.arr ts, rs) ∧ (∀ x ∈ ts, x = .undef) ∧
    total allocated (.arr []) [.int 7, .array, .pushBack [.elem 1] [.elem 0], .array, .pushBack [.elem 2] [.elem 1], .destroy 2, .destroy 1, .destroy 0] = 6 ∧
    total lostBy (.arr []) [.int 7, .array, .pushBack [.elem 1] [.elem 0], .array, .pushBack [.elem 2] [.elem 1], .destroy 2, .destroy 1, .destroy 0] = 4 :=
  ⟨[.undef, .undef, .undef], _, rfl, by simp, by rfl, by rfl⟩

end Eni.Props
