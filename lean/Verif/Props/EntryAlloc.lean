import Verif.Model.EntryAlloc
import Verif.Props.Tools
/-!
# C110: a refused allocation in the entry points
-/
namespace Eni.Props
open Spec Base Json Cli

variable {S : Type}

/-- A system with one library, where the entry points obtain memory for their result or not. -/
def oneLibA (grant : Bool) (lib name : Bytes) (H : Hooks S) (L : Layout) : Sys where
  Lib := Unit
  dlopen := fun l => if l = lib then some () else none
  gasSym := fun _ n => if n = gasSymbol name then some (gasEntryA grant H L) else none
  runSym := fun _ n => if n = runSymbol name then some (runEntryA grant H L) else none
  deleteFrees := true

/-- C110, with enough memory the entry points are those of C41 (the model with an allocator adds nothing). -/
theorem C110_granted (H : Hooks S) (L : Layout) (p : Bytes) :
    runEntryA true H L p = runEntry H L p ∧ gasEntryA true H L p = gasEntry H L p := by
  constructor
  · unfold runEntryA runEntry
    cases opRun H L p with
    | ok r => cases r <;> rfl
    | _ => rfl
  · rfl

/-- C110, what holds of `OP_run`: for any operation and argument text, a call without memory for the result returns the null pointer or ends as it would
have ended with enough memory; it never returns a text. -/
theorem C110_run_partial (H : Hooks S) (L : Layout) (p : Bytes) :
    (∀ r, runEntryA true H L p = .ok r → runEntryA false H L p = .ok none) ∧
    (∀ e, runEntryA true H L p = .throw e ↔ runEntryA false H L p = .throw e) ∧
    (∀ c, runEntryA true H L p = .exit c ↔ runEntryA false H L p = .exit c) ∧
    (∀ u, runEntryA true H L p = .ub u ↔ runEntryA false H L p = .ub u) ∧
    (runEntryA true H L p = .diverge ↔ runEntryA false H L p = .diverge) := by
  unfold runEntryA
  cases opRun H L p with
  | ok r => cases r <;> simp
  | throw e => simp [Bind.bind, Res.bind]
  | ub u => simp [Bind.bind, Res.bind]
  | diverge => simp [Bind.bind, Res.bind]
  | exit c => simp [Bind.bind, Res.bind]

/-- C110 is false of `OP_run` as seen by the caller: for any operation that produces a result, the call without memory for it is reported by `eni_run`
in the same way as a rejected argument, status 5 without output. -/
theorem C110_run_false (H : Hooks S) (L : Layout) (lib name p t : Bytes) (h : opRun H L p = .ok (some t)) (args : List Bytes)
    (ha : positional args = [lib, name, p]) :
    runMain (oneLibA true lib name H L) args = .ok ⟨cstr t ++ [10], [], 0⟩ ∧ runMain (oneLibA false lib name H L) args = .ok ⟨[], [], 5⟩ ∧
    ∀ q, opRun H L q = .ok none → ∀ args', positional args' = [lib, name, q] →
      runMain (oneLibA true lib name H L) args' = runMain (oneLibA false lib name H L) args := by
  have h1 := ((((C54_run (oneLibA true lib name H L) args).2 lib name _ ha).2 () (by simp [oneLibA])).2 (runEntryA true H L) (by simp [oneLibA])).2.1 t
    (by simp [runEntryA, h])
  have h2 := ((((C54_run (oneLibA false lib name H L) args).2 lib name _ ha).2 () (by simp [oneLibA])).2 (runEntryA false H L) (by simp [oneLibA])).1
    (by simp [runEntryA, h])
  refine ⟨h1, h2, fun q hq args' ha' => ?_⟩
  rw [h2]
  exact ((((C54_run (oneLibA true lib name H L) args').2 lib name _ ha').2 () (by simp [oneLibA])).2 (runEntryA true H L) (by simp [oneLibA])).1
    (by simp [runEntryA, hq])

/-- C110 is false of `OP_gas`: whenever the call would return a price, without memory for it the program writes through the null pointer. -/
theorem C110_gas_false (H : Hooks S) (L : Layout) (lib name p : Bytes) (n : Nat) (h : opGas H L p = .ok n) (args : List Bytes)
    (ha : positional args = [lib, name, p]) :
    gasEntryA false H L p = .ub .nullDeref ∧ gasMain (oneLibA false lib name H L) args = .ub .nullDeref := by
  have he : gasEntryA false H L p = .ub .nullDeref := by simp [gasEntryA, h]
  refine ⟨he, ?_⟩
  unfold gasMain
  rw [(C53_iff args ⟨lib, name, p⟩).mpr ha]
  simp only [oneLibA, if_true, gasSymbol_eq]
  rw [he]
  rfl

/-- `reverse` of any string meets the hypotheses. -/
example (L : Layout) (s : Bytes) : opRun Reverse.op L (Value.print (.arr [.str s])) = .ok (some (Value.print (.arr [.str s.reverse]))) ∧
    opGas Reverse.op L (Value.print (.arr [.str s])) = .ok (10 * s.length) := by
  obtain ⟨ht, h0⟩ := print_strs [s]
  have h := C42_reverse L (w := []) (r := []) s [] (by simp [WS]) ht (by simpa using h0)
  simpa using h

end Eni.Props
