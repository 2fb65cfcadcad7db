import Verif.Proofs.PrintMem
import Verif.Props.ParserMem
import Verif.Props.JsonOwner
/-!
# Printing values in memory: C112
-/
namespace Eni.Props
open Spec Owner

/-! ### C112 -/

/-- The order of insertion is one of the possible orders of visits. -/
theorem orders_exist (h : Owner.Heap) : ∃ ord, Orders ord h := by
  refine ⟨fun p => match h.cell p with
    | some (.obj ks _) => List.range ks.length
    | _ => [], ?_⟩
  intro p ks vs hp
  simp only [hp]
  exact .refl _

/-- C112, programs: after any program that avoids the aliasing situations listed at `pstep`, every value that the program can reach is printed
without undefined behaviour, and the characters are a text of the tree that the value should be. -/
theorem C112_program (ops : List Op) (t : Tree) (rs : List Rep) (h : pruns (.arr []) ops = some (t, rs)) (path : Path) (hne : path ≠ []) (u : Tree)
    (hu : t.get path = some u) :
    ∃ hp loc, run Heap.init ops = .ok (hp, rs) ∧ locate hp frame path = .ok loc ∧
      ∀ ord, Orders ord hp → ∃ x, printAt ord hp loc = .ok x ∧ Shown u x := by
  obtain ⟨hp, h1, l, H, nd, hlt, hf⟩ := run_sim Inv.init h
  obtain ⟨d, wd, ld, lr, cd, g1, g2, _, g3, g4, _⟩ := focus path H nd hne hu
  refine ⟨hp, d, h1, g1, fun ord ho => ?_⟩
  have hn := (List.nodup_append.mp (g4.nodup_iff.mp nd)).1
  have hle := length_le_of_lt (n := hp.next) hn fun q hq => hlt q (g4.mem_iff.mpr (by simp [hq]))
  obtain ⟨x, e, s⟩ := printM_spec ord hp ho hp.fuel wd u ld (by simp [Heap.fuel]; omega) g3
  exact ⟨x, by simp only [printAt, g2, Res.ok_bind, e], s⟩

/-- An object in an array, an undefined value and a string. -/
example : ∃ t, pruns (.arr []) [.object, .str [120], .setMember [.elem 0] [107] [.elem 1], .array, .pushBack [.elem 2] [.elem 0], .undef] =
    some (t, [.done, .done, .done, .done, .done, .done]) ∧ t.get [.elem 2, .elem 0] = some (.obj [[107]] [.str [120]]) :=
  ⟨_, by simp (config := { decide := true }) [pruns, pstep, Tree.declare, Tree.kids, Tree.withKids, Tree.get, Tree.set, Tree.pos]; rfl, rfl⟩

/-- C112, parsed texts: the root that the parser leaves in memory is printed without undefined behaviour as a text of the value. -/
theorem C112_parsed (grow : Nat → Bool) (L : Json.Layout) (hL : L.Good) {w t r : Bytes} {j : JV} (hw : WS w) (ht : JText t j)
    (hr : (∃ z, j = .int z) → NoDigit r) :
    ∃ h cb, parseM grow L (w ++ (t ++ r)) = .ok (h, cb, true) ∧
      ∀ ord, Orders ord h → ∃ x, printAt ord h ⟨0, cb.root⟩ = .ok x ∧ Shown j.tree x := by
  obtain ⟨h, cb, a, g, e, _, st, _⟩ := parse_mem_text grow hw ht hr (.inl hL)
  obtain ⟨ts, F, k0, ⟨l, H, nd, hlt, _⟩, hl, v, _⟩ := st
  obtain ⟨d, wd, ld, lr, cd, g1, g2, _, g3, g4, _⟩ := focus [.elem cb.root] H nd (by simp) ((get_var ts cb.root).trans (v.2.1 (cb.root, j.tree) (by simp)))
  have hd : d = ⟨0, cb.root⟩ := by
    simp only [locate, stepInto, frame, if_true, Heap.deref] at g1
    cases H with
    | arr hc _ =>
      simp only [hc, Res.ok_bind] at g1
      split at g1
      · cases g1; rfl
      · cases g1
  subst hd
  refine ⟨h, cb, e, fun ord ho => ?_⟩
  have hn := (List.nodup_append.mp (g4.nodup_iff.mp nd)).1
  have hle := length_le_of_lt (n := h.next) hn fun q hq => hlt q (g4.mem_iff.mpr (by simp [hq]))
  obtain ⟨x, e', s⟩ := printM_spec ord h ho h.fuel wd j.tree ld (by simp [Heap.fuel]; omega) g3
  exact ⟨x, by simp only [printAt, g2, Res.ok_bind, e'], s⟩

/-- `{"a":[true,-12]}` -/
example := C112_parsed (fun _ => true) ⟨100, 0, 50⟩ (by simp [Json.Layout.Good]) (w := []) (r := []) (by simp [WS]) sample_text (by simp)

/-- C112, agreement with printing of plain data (C30): what `Value.print` gives for a value is a text of its tree. -/
theorem C112_plain {v : Value} {j : JV} (hv : Shows v j) : Shown j.tree (Value.print v) := shows_shown hv

example := C112_plain sample_mixed

/-- C112, values without members: the text is determined, the plain value has the same one, and it denotes the value again. -/
theorem C112_round_trip {v : Value} {j : JV} (hv : Shows v j) (hn : NoMembers j) (hr : InRange j) {x : Bytes} (hx : Shown j.tree x) :
    x = Value.print v ∧ JText x j := by
  have e := shown_unique hn hx (shows_shown hv)
  exact ⟨e, e ▸ Json.print_text hv hn hr⟩

/-- `["x",-3]` -/
example : Value.print (.arr [.str [120], .int (-3)]) = [91, 34, 120, 34, 44, 45, 51, 93] :=
  (C112_round_trip sample_mixed (.arr (by simp; exact ⟨.str, .int⟩)) (.arr (by simp; exact ⟨.str, .int (by decide)⟩)) (x := [91, 34, 120, 34, 44, 45, 51, 93]) (by
    have h1 : Value.print (.str [120]) = [34, 120, 34] := by rw [Value.print]; decide
    have h2 : Value.print (.int (-3)) = [45, 51] := by rw [Value.print]; simp [Value.s256Print, Value.natDec]
    have := Shown.arr (.cons .str (.cons .int .nil)) (ts := [.str [120], .int (-3)])
    rw [h1, h2] at this
    exact this)).1.symm

end Eni.Props
