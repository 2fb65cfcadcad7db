import Verif.Proofs.Allocator
/-!
# C100: `allocate(n)` provides room for `n` objects
-/
namespace Eni.Props
open Spec Alloc

/-- For every type and every program that asks for at most `max_size()` objects at a time: as long as the program keeps to the arrays it was given, everything it
does is defined, it reads what it wrote, arrays do not interfere, and the memory still held is exactly that of the arrays not given back. What is missing from the
full statement: requests above `max_size()` (`C100_room_iff`, `C100_wrap_false`). -/
theorem C100_programs_partial {α : Type} (cfg : Cfg α) (ops : List (AOp α)) (hk : AtMostAtOnce (maxSize cfg) ops) {vs : List (Arr α)} {reps : List (ARep α)}
    (h : arrRun cfg.dflt [] ops = some (vs, reps)) : ∃ s, run cfg ⟨Mem.init, []⟩ ops = .ok (s, reps) ∧ heldBlocks s.mem = Arr.held vs := by
  obtain ⟨s, h1, h2⟩ := run_sim ops (Rel.init cfg) hk h
  exact ⟨s, h1, h2.count⟩

/-- Objects of 8 bytes. -/
def words : Cfg Nat := ⟨8, 0, by decide⟩

/-- A program with three arrays, one of which is refused. -/
def threeArrays : List (AOp Nat) :=
  [.allocate 3 true, .allocate 2 true, .allocate 5 false, .construct 0 2 7, .construct0 1 0, .construct 1 1 9, .get 0 2, .get 1 0, .get 1 1, .destroy 1 1, .construct 1 1 4,
    .get 1 1, .deallocate 2, .deallocate 0, .get 1 0]

example : ∃ s, run words ⟨Mem.init, []⟩ threeArrays =
    .ok (s, [.null false, .null false, .null true, .done, .done, .done, .val 7, .val 0, .val 9, .done, .done, .val 4, .done, .done, .val 0]) ∧ heldBlocks s.mem = 1 := by
  have hk : AtMostAtOnce (maxSize words) threeArrays := by
    intro n g h
    simp only [threeArrays, List.mem_cons, AOp.allocate.injEq, reduceCtorEq, List.not_mem_nil, or_false, false_or] at h
    have : maxSize words = 2305843009213693951 := rfl
    omega
  exact C100_programs_partial words threeArrays hk (vs := [.gone, .arr 2 _, .null]) rfl

/-- Whether the last of the `n` objects asked for (and granted) can be constructed. -/
def RoomFor {α : Type} (cfg : Cfg α) (n : Nat) : Prop := ∀ a, ∃ s, run cfg ⟨Mem.init, []⟩ [.allocate n true, .construct 0 (n - 1) a] = .ok (s, [.null false, .done])

/-- For every type and every number of objects that a `size_t` can hold: there is room for all of them exactly if the number is at most `max_size()`. -/
theorem C100_room_iff {α : Type} (cfg : Cfg α) (n : Nat) (h0 : 0 < n) (hn : n < 2 ^ 64) : RoomFor cfg n ↔ n ≤ maxSize cfg := by
  have hne : n - 1 + 1 = n := by omega
  have hlast : (n - 1) * cfg.sz + cfg.sz = n * cfg.sz := by rw [← Nat.succ_mul, Nat.succ_eq_add_one, hne]
  have hmax : n ≤ maxSize cfg ↔ n * cfg.sz < 2 ^ 64 := by
    rw [maxSize, Nat.le_div_iff_mul_le cfg.sz_pos]
    omega
  constructor
  · intro h
    rw [hmax]
    obtain ⟨s, h⟩ := h cfg.dflt
    refine Decidable.byContradiction fun hge => ?_
    have hlt : w64 (n * cfg.sz) < n * cfg.sz := by
      have : w64 (n * cfg.sz) < 2 ^ 64 := Nat.mod_lt _ (by decide)
      omega
    have hb : ¬ n * cfg.sz ≤ w64 (n * cfg.sz) := by omega
    simp [run, step, allocate, malloc, St.ptr, Mem.init, construct, place, hlast, hb] at h
  · intro h a
    have hk : AtMostAtOnce (maxSize cfg) [.allocate n true, .construct 0 (n - 1) a] := by
      intro k g hm
      simp only [List.mem_cons, AOp.allocate.injEq, reduceCtorEq, List.not_mem_nil, or_false] at hm
      omega
    obtain ⟨s, h1, _⟩ := C100_programs_partial cfg _ hk (vs := [.arr n fun j => if j = n - 1 then some a else none]) (reps := [.null false, .done])
      (by simp [arrRun, arrStep, show n - 1 < n by omega])
    exact ⟨s, h1⟩

example : RoomFor words 1000 := (C100_room_iff words 1000 (by decide) (by decide)).mpr (by decide)

/-- The property is false of the code: asked for 2^61 + 1 objects of 8 bytes, the allocator is content with a block of 8 bytes; the program that constructs the second
object writes outside the block, though it was granted the array. -/
theorem C100_wrap_false : ¬ RoomFor words (2 ^ 61 + 1) ∧ arrRun 0 [] [.allocate (2 ^ 61 + 1) true, .construct 0 1 (5 : Nat)] ≠ none ∧
    run words ⟨Mem.init, []⟩ [.allocate (2 ^ 61 + 1) true, .construct 0 1 5] = .ub .outOfBounds := by
  refine ⟨fun h => ?_, by simp [arrRun, arrStep], by rfl⟩
  have := (C100_room_iff words _ (by decide) (by decide)).mp h
  revert this
  decide

/-- Programs that use the null pointer as an array: the allocator does not report the failure, the first access is undefined. -/
theorem C100_null {α : Type} (cfg : Cfg α) (n i : Nat) (a : α) : run cfg ⟨Mem.init, []⟩ [.allocate n false, .construct 0 i a] = .ub .nullDeref := by
  simp [run, step, allocate, malloc, St.ptr, construct, place]

/-- `MallocAllocator<void>` has room for `n` objects of its `value_type` only if `n` is zero. -/
theorem C100_void_false (n : Nat) : n * 8 ≤ voidBytes n ↔ n = 0 := by
  simp only [voidBytes]
  omega

example : ¬ 1 * 8 ≤ voidBytes 1 := by simp [voidBytes]

/-- The allocator of table entries: room for `n` entries of size `sz` with the key's bytes and the terminator behind the last. For one entry there is room whenever
the sum does not exceed 2^64 − 1; for two or more entries larger than the key, never. -/
theorem C100_entry_partial (sz n len : Nat) (h : sz + len + 1 < 2 ^ 64) : n * sz + len + 1 ≤ entryBytes sz n len ↔ n ≤ 1 ∨ sz = 0 := by
  have hw : entryBytes sz n len = sz + len + 1 := Nat.mod_eq_of_lt (by omega)
  rw [hw]
  constructor
  · intro h
    refine Decidable.byContradiction fun hc => ?_
    rw [not_or] at hc
    have : 2 * sz ≤ n * sz := Nat.mul_le_mul_right _ (by omega)
    omega
  · rintro (h | h)
    · have : n * sz ≤ 1 * sz := Nat.mul_le_mul_right _ h
      omega
    · subst h
      omega

/-- The property is false of this allocator: the number of entries is ignored. -/
theorem C100_entry_false : ¬ 2 * 24 + 3 + 1 ≤ entryBytes 24 2 3 := fun h => by
  have := (C100_entry_partial 24 2 3 (by decide)).mp h
  omega

example : 1 * 24 + 3 + 1 ≤ entryBytes 24 1 3 := (C100_entry_partial 24 1 3 (by decide)).mpr (Or.inl (by decide))

end Eni.Props
