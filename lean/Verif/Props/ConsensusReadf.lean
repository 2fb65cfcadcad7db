import Verif.Model.ConsensusReadf
import Verif.Props.ConsensusShipped
import Verif.Props.TestLib
/-!
# C68: arguments of kind `f`

docs/tools/consensus.rst 66: "File: a string containing the file content."
-/
namespace Eni.Props
open Spec Base Json Consensus TestLib

theorem newlines_facts (b : Bytes) : (newlines b).length ≤ b.length ∧ (13 : UInt8) ∉ newlines b ∧ ((13 : UInt8) ∉ b → newlines b = b) ∧
    ∀ c ∈ newlines b, c = 10 ∨ c ∈ b := by
  induction b using newlines.induct with
  | case1 => simp [newlines]
  | case2 => simp [newlines]
  | case3 s ih =>
    obtain ⟨h1, h2, h3, h4⟩ := ih
    refine ⟨by simp [newlines]; omega, by simp [newlines, h2], by simp, ?_⟩
    intro c hc
    simp only [newlines, if_true, List.mem_cons] at hc
    rcases hc with rfl | hc
    · exact .inl rfl
    · rcases h4 c hc with h | h <;> simp [h]
  | case4 d s hd ih =>
    obtain ⟨h1, h2, h3, h4⟩ := ih
    refine ⟨by simp [newlines, hd] at h1 ⊢; omega, by simp only [newlines, if_true, hd, if_false, List.mem_cons, not_or]; exact ⟨by decide, h2⟩, by simp, ?_⟩
    intro c hc
    have e : newlines (13 :: d :: s) = 10 :: newlines (d :: s) := by rw [newlines.eq_def]; simp [hd]
    rw [e] at hc
    rcases List.mem_cons.mp hc with rfl | hc
    · exact .inl rfl
    · rcases h4 c hc with h | h
      · exact .inl h
      · exact .inr (List.mem_cons_of_mem _ h)
  | case5 c r hc ih =>
    obtain ⟨h1, h2, h3, h4⟩ := ih
    have e : newlines (c :: r) = c :: newlines r := by rw [newlines.eq_def]; simp [hc]
    rw [e]
    refine ⟨by simpa using h1, by simp [h2, Ne.symm hc], ?_, ?_⟩
    · intro h
      rw [h3 fun hm => h (List.mem_cons_of_mem _ hm)]
    · intro x hx
      rcases List.mem_cons.mp hx with rfl | hx
      · simp
      · rcases h4 x hx with h | h <;> simp [h]

/-- C68 for files, the string: it is the contents exactly if these are UTF-8, have no carriage return and do not end with a line feed. -/
theorem C68_readf (b : Bytes) : readf b = some b ↔ (∃ s, decode b = some s) ∧ (13 : UInt8) ∉ b ∧ ∀ c, b.getLast? = some c → c ≠ 10 := by
  obtain ⟨h1, h2, h3, -⟩ := newlines_facts b
  have key : chop (newlines b) = b ↔ (13 : UInt8) ∉ b ∧ ∀ c, b.getLast? = some c → c ≠ 10 := by
    rw [chop_spec]
    constructor
    · rintro ⟨ha, n, hn⟩
      have hl := congrArg List.length hn
      rw [List.length_append, List.length_replicate] at hl
      have : n = 0 := by omega
      subst this
      rw [List.replicate_zero, List.append_nil] at hn
      exact ⟨by rw [← hn]; exact h2, ha⟩
    · rintro ⟨ha, hb⟩
      exact ⟨hb, 0, by simp [h3 ha]⟩
  cases hd : decode b with
  | none => simp [readf, hd]
  | some s => simp [readf, hd, key]

/-- C68 for files, the parameters: for contents without quotes and backslashes, the parameters are the array of the contents exactly if these have no carriage
return and do not end with a line feed. -/
theorem C68_file (gen : UInt8 → Bytes → Option Bytes) (path b : Bytes) (s : String) (hd : decode b = some s) (hg : gen 102 path = readf b) (hb : PlainText b) :
    ∃ t, expand gen [102 :: 58 :: path] = some t ∧ (JText t (.arr [.str b]) ↔ (13 : UInt8) ∉ b ∧ ∀ c, b.getLast? = some c → c ≠ 10) := by
  have hr : readf b = some (chop (newlines b)) := by simp [readf, hd]
  have hx : expandArg gen (102 :: 58 :: path) = some (chop (newlines b)) := by
    rw [← hr, ← hg]
    simp [expandArg]
  have hsub : ∀ c ∈ chop (newlines b), c = 10 ∨ c ∈ b := by
    intro c hc
    obtain ⟨-, n, hn⟩ := (chop_spec (newlines b) _).mp rfl
    exact (newlines_facts b).2.2.2 c (by rw [hn]; exact List.mem_append_left _ hc)
  have hp : PlainText (chop (newlines b)) := by
    constructor
    · intro hc
      rcases hsub _ hc with h | h
      · revert h; decide
      · exact hb.1 h
    · intro hc
      rcases hsub _ hc with h | h
      · revert h; decide
      · exact hb.2 h
  obtain ⟨t, h1, h2⟩ := C68_partial gen [102 :: 58 :: path] [chop (newlines b)] (.cons hx .nil) (by simpa using hp)
  refine ⟨t, h1, ?_⟩
  have hiff := C68_readf b
  rw [hr, Option.some.injEq] at hiff
  have h3 : ((∃ s, decode b = some s) ∧ (13 : UInt8) ∉ b ∧ ∀ c, b.getLast? = some c → c ≠ 10) ↔ (13 : UInt8) ∉ b ∧ ∀ c, b.getLast? = some c → c ≠ 10 :=
    ⟨fun h => h.2, fun h => ⟨⟨s, hd⟩, h⟩⟩
  rw [← h3, ← hiff]
  constructor
  · intro h
    have nw : WS [] := fun c hc => by cases hc
    have := (jtext_unique (w := []) (w' := []) (r := []) (r' := []) nw nw h h2 (by rintro ⟨z, hz⟩; cases hz) (by rintro ⟨z, hz⟩; cases hz) rfl).1
    simp at this
    exact this.symm
  · intro h
    rw [h] at h2
    exact h2

/-- C68 is false for files that end with a line feed, as those of test/consensus/data do: it is not in the string. -/
theorem C68_file_false (gen : UInt8 → Bytes → Option Bytes) (path b : Bytes) (s : String) (hd : decode (b ++ [10]) = some s)
    (hg : gen 102 path = readf (b ++ [10])) (hb : PlainText b) :
    ∃ t, expand gen [102 :: 58 :: path] = some t ∧ ¬ JText t (.arr [.str (b ++ [10])]) := by
  have hp : PlainText (b ++ [10]) := by
    constructor <;> simp only [List.mem_append, List.mem_singleton, not_or]
    · exact ⟨hb.1, by decide⟩
    · exact ⟨hb.2, by decide⟩
  obtain ⟨t, h1, h2⟩ := C68_file gen path (b ++ [10]) s hd hg hp
  exact ⟨t, h1, fun h => (h2.mp h).2 10 (by simp) rfl⟩

example := C68_file_false (fun _ _ => readf [65, 10]) [97] [65] "A\n" (by decide +kernel) rfl ⟨by decide, by decide⟩
example : readf [65, 13, 10, 66] = some [65, 10, 66] := by decide +kernel
example : readf [65, 13, 66, 13] = some [65, 10, 66] := by decide +kernel
example : readf [65, 32] = some [65, 32] := (C68_readf _).mpr ⟨⟨"A ", by decide +kernel⟩, by decide, by decide⟩

end Eni.Props
