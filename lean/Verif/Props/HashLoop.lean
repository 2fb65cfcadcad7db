import Verif.Proofs.HashLoop
/-!
# C101: hashing a string comes to an end
-/
namespace Eni.Props
open Hasher

/-- For each of the eleven functions with a 32-bit index and every string: the function returns exactly if the string is shorter than 2^32 bytes. What is missing from
the full statement: longer strings. -/
theorem C101_ends_partial (fn : Fn) (s : List UInt8) : (∃ v, Returns fn s v) ↔ s.length < 2 ^ 32 := by
  constructor
  · rintro ⟨v, r, h, _⟩
    apply Decidable.byContradiction
    intro hs
    exact loop_endless (by omega) h
  · intro hs
    exact ⟨_, _, loop_ends hs _ rfl, rfl⟩

/-- What it returns is the hash value that Model/StringHasher and all theorems about it (C13, C59, C72) speak of. -/
theorem C101_value (fn : Fn) (s : List UInt8) (v : UInt32) (h : Returns fn s v) : v = hashOf fn s := by
  have hs := (C101_ends_partial fn s).mp ⟨v, h⟩
  obtain ⟨r, h, rfl⟩ := h
  rw [loop_unique h (loop_ends hs _ rfl)]
  exact over_hash fn s

example : Returns .djb [97, 98, 99] 193485963 := by
  obtain ⟨v, h⟩ := (C101_ends_partial .djb [97, 98, 99]).mpr (by decide)
  have := C101_value _ _ _ h
  rw [show hashOf .djb [97, 98, 99] = 193485963 by decide +kernel] at this
  exact this ▸ h

/-- The property is false of the code: none of the eleven functions returns for a string of 2^32 bytes. -/
theorem C101_endless_false (fn : Fn) : ∃ s : List UInt8, ∀ v, ¬ Returns fn s v := by
  refine ⟨List.replicate (2 ^ 32) 0, fun v h => ?_⟩
  have := (C101_ends_partial fn _).mp ⟨v, h⟩
  rw [List.length_replicate] at this
  exact absurd this (by decide)

/-- The twelfth function has a 64-bit index: it returns for every string, whatever its length, as long as all bytes are ASCII (the others are undefined behaviour). -/
theorem C101_es (s : List UInt8) (h : ∀ c ∈ s, c < 128) : ∃ v, es s = .ok v := by
  have : ∀ (s : List UInt8) (st : UInt32 × UInt32), (∀ c ∈ s, c < 128) → ∃ r, esLoop st s = some r := by
    intro s
    induction s with
    | nil => intro st _; exact ⟨st, rfl⟩
    | cons c s ih =>
      intro st h
      have hc : ¬ 128 ≤ c := UInt8.not_le.mpr (h c (by simp))
      have : ∃ r, esStep st c = some r := by
        simp only [esStep, if_neg hc]
        split
        · exact ⟨_, rfl⟩
        split
        · exact ⟨_, rfl⟩
        split
        · exact ⟨_, rfl⟩
        split
        · exact ⟨_, rfl⟩
        split <;> exact ⟨_, rfl⟩
      obtain ⟨r, hr⟩ := this
      rw [esLoop, hr]
      exact ih r fun d hd => h d (by simp [hd])
  obtain ⟨r, hr⟩ := this s (0, 0) h
  exact ⟨_, by rw [es, hr]⟩

example : ∃ v, es (List.replicate (2 ^ 32) 97) = .ok v := C101_es _ fun c hc => by
  rw [List.eq_of_mem_replicate hc]
  decide

end Eni.Props
