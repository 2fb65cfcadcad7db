import Verif.Proofs.OwnerArray
/-!
# Properties of whole arrays and objects inside values: C125
-/
namespace Eni.Props
open Spec Owner

/-- C125, the part that holds: programs of any length that also empty, resize and assign the arrays inside their values, except to a part of the source. Such a
program runs without undefined behaviour, observes what plain trees would give, and in the end the variables are those trees, with no storage cell shared by two
values. `dst` may be `src`, and `src` may be a part of `dst`. -/
theorem C125_programs_partial (ops : List AOp) (t : Tree) (rs : List Rep) (h : apruns (.arr []) ops = some (t, rs)) :
    ∃ hp, runA Heap.init ops = .ok (hp, rs) ∧ ∃ l, Holds hp frame t l ∧ l.Nodup := by
  obtain ⟨hp, h1, l, h2, h3, _⟩ := runA_sim Inv.init h
  exact ⟨hp, h1, l, h2, h3⟩

/-- C125, assignment by itself: after any such program, `dst.asArray() = src.asArray()` leaves `dst` with the elements of `src`, and `src` (unless it is a part of
`dst`) and every other variable as they were. -/
theorem C125_assign_partial (ops : List AOp) (t : Tree) (rs : List Rep) (h : apruns (.arr []) ops = some (t, rs)) (dst src : Path) (hd : dst ≠ []) (hs : src ≠ [])
    (ts us : List Tree) (h1 : t.get dst = some (.arr ts)) (h2 : t.get src = some (.arr us)) (hpart : ¬ (src <+: dst ∧ src ≠ dst)) :
    ∃ hp hp', runA Heap.init ops = .ok (hp, rs) ∧ stepA hp (.assignArray dst src) = .ok (hp', .done) ∧
      ∃ l, Holds hp' frame (t.set (.arr us) dst) l ∧ l.Nodup := by
  obtain ⟨hp, e1, I⟩ := runA_sim Inv.init h
  have hst : apstep t (.assignArray dst src) = some (t.set (.arr us) dst, .done) := by
    simp [apstep, hd, hs, h1, h2]
    exact fun a => Decidable.byContradiction fun b => hpart ⟨a, b⟩
  obtain ⟨hp', e2, l, a, b, _⟩ := stepA_sim I hst
  exact ⟨hp, hp', e1, e2, l, a, b⟩

/-- A program: `a = ["x", []]; b = []; b = a` (arrays), `b[1]` resized to three, `a` assigned its own part, itself, and emptied. -/
example : ∃ t, apruns (.arr []) [.base .array, .base (.str [120]), .base .array, .base (.pushBack [.elem 0] [.elem 1]), .base (.pushBack [.elem 0] [.elem 2]),
    .assignArray [.elem 2] [.elem 0], .resize [.elem 2, .elem 1] 3, .assignArray [.elem 0] [.elem 0], .assignArray [.elem 0] [.elem 0, .elem 1],
    .assignArray [.elem 0] [.elem 2, .elem 1], .resize [.elem 2] 1, .clear [.elem 0]] =
    some (t, [.done, .done, .done, .done, .done, .done, .done, .done, .done, .done, .done, .done]) :=
  ⟨_, by simp (config := { decide := true }) [apruns, apstep, pstep, Tree.declare, Tree.kids, Tree.withKids, Tree.get, Tree.set, Tree.pos]; rfl⟩

/-- C125 is false of the code: `a = [[]]; a[0].asArray() = a.asArray()`. The target is given one undefined element before the source, which contains the target,
is copied into it; `operator=` has by then made this element an array with an uninitialised pointer. -/
theorem C125_part_false : runA Heap.init [.base .array, .base .array, .base (.pushBack [.elem 0] [.elem 1]), .assignArray [.elem 0, .elem 0] [.elem 0]] = .ub .uninit := by
  rfl

/-- C125 is false of the code: the assignment of objects is undefined behaviour for any two objects, equal or not, in any state. -/
theorem C125_object_false (h : Owner.Heap) (dst src : Path) (p q : Nat) (ks ls : List Bytes) (vs us : List Val) (h1 : objectAt h dst = .ok (p, ks, vs))
    (h2 : objectAt h src = .ok (q, ls, us)) : stepA h (.assignObject dst src) = .ub .noReturn := by
  simp only [stepA, h1, h2, Res.ok_bind]

example : runA Heap.init [.base .object, .base .object, .assignObject [.elem 0] [.elem 1]] = .ub .noReturn := rfl

/-- C125, exact amounts: after any such program the number of heap objects in use is the number of those that the variables consist of plus those that the program
lost; `hp.next` counts all that were ever allocated. Assigning, emptying and shrinking an array loses everything its former elements consisted of. -/
theorem C125_exact_partial (ops : List AOp) (t : Tree) (rs : List Rep) (h : apruns (.arr []) ops = some (t, rs)) :
    ∃ hp, runA Heap.init ops = .ok (hp, rs) ∧ hp.next = 1 + totalA allocatedA (.arr []) ops ∧ live hp = t.cells + totalA lostA (.arr []) ops := by
  obtain ⟨hp, e, _, h1, h2⟩ := runA_ran Inv.init h
  refine ⟨hp, e, h1, ?_⟩
  have := live_init
  simp only [Tree.cells, Tree.cellsAll] at h2
  omega

/-- Four objects are allocated for `a = ["x"]; a = a`; the two strings that `a` was made of before are lost. -/
example : totalA allocatedA (.arr []) [.base .array, .base (.str [120]), .base (.pushBack [.elem 0] [.elem 1]), .assignArray [.elem 0] [.elem 0], .clear [.elem 0]] = 4 ∧
    totalA lostA (.arr []) [.base .array, .base (.str [120]), .base (.pushBack [.elem 0] [.elem 1]), .assignArray [.elem 0] [.elem 0], .clear [.elem 0]] = 2 :=
  ⟨by rfl, by rfl⟩

/-- and no storage is released: emptying an array of a string leaves the string without an owner (compare C63). -/
theorem C125_clear_leaks_false (s : Bytes) : ∃ h, runA Heap.init [.base .array, .base (.str s), .base (.pushBack [.elem 0] [.elem 1]), .clear [.elem 0]] =
    .ok (h, [.done, .done, .done, .done]) ∧ h.cell 3 = some (.str s) ∧ h.cell 0 = some (.arr [⟨.arr, .ptr 1⟩, ⟨.str, .ptr 2⟩]) ∧ h.cell 1 = some (.arr []) :=
  ⟨_, rfl, rfl, rfl, rfl⟩

end Eni.Props
