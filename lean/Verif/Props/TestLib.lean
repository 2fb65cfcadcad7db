import Verif.Model.TestLib
import Verif.Props.Tools
/-!
# C133: what a passing regression test shows
-/
namespace Eni.Props
open TestLib Spec Base Json Cli

/-- What a test expects of a command: it writes the text and a line feed to its standard output, nothing to the other stream, and ends with status 0. -/
def AsExpected (e : Bytes) (r : Ran) : Prop :=
  r.status = 0 ∧ (∀ b, Write.err b ∈ r.writes → b = []) ∧ (r.writes.flatMap fun w => match w with | .out b => b | .err _ => []) = e ++ [10]

theorem chop_append (b : Bytes) (n : Nat) (h : ∀ c, b.getLast? = some c → c ≠ 10) : chop (b ++ List.replicate n 10) = b := by
  unfold chop
  rw [List.reverse_append, List.reverse_replicate, List.dropWhile_append_of_pos (by simp +contextual)]
  rcases List.eq_nil_or_concat b with rfl | ⟨b, c, rfl⟩
  · rfl
  · have hc : c ≠ 10 := h c (by simp)
    simp [hc]

theorem chop_spec (b t : Bytes) : chop b = t ↔ (∀ c, t.getLast? = some c → c ≠ 10) ∧ ∃ n, b = t ++ List.replicate n 10 := by
  constructor
  · rintro rfl
    induction b using List.reverseRecOn with
    | nil => exact ⟨by simp [chop], 0, by simp [chop]⟩
    | append_singleton b c ih =>
      by_cases hc : c = 10
      · subst hc
        have e : chop (b ++ [10]) = chop b := by simp [chop]
        rw [e]
        obtain ⟨h1, n, h2⟩ := ih
        refine ⟨h1, n + 1, ?_⟩
        rw [List.replicate_succ', ← List.append_assoc, ← h2]
      · have e : chop (b ++ [c]) = b ++ [c] := by simp [chop, hc]
        rw [e]
        exact ⟨by simpa using hc, 0, by simp⟩
  · rintro ⟨h, n, rfl⟩
    exact chop_append t n h

/-- C133, exactly: a check passes if the expected text does not end with a line feed and what was written to both streams is, but for NUL bytes, the text and any number
of line feeds. The status of the command does not count. -/
theorem C133_passes (e : Bytes) (r : Ran) :
    oExpect e r = 0 ↔ (∀ c, e.getLast? = some c → c ≠ 10) ∧ ∃ n, r.all.filter (· ≠ 0) = e ++ List.replicate n 10 := by
  rw [← chop_spec]
  unfold oExpect tRun substitute
  simp [eq_comm]

theorem quiet_all (r : Ran) (h : ∀ b, Write.err b ∈ r.writes → b = []) :
    r.all = r.writes.flatMap fun w => match w with | .out b => b | .err _ => [] := by
  unfold Ran.all
  generalize r.writes = ws at h
  induction ws with
  | nil => rfl
  | cons w ws ih =>
    have := ih fun b hb => h b (List.mem_cons_of_mem _ hb)
    cases w with
    | out b => simp [this]
    | err b =>
      have hb := h b List.mem_cons_self
      subst hb
      simp [this]

/-- C133, one half: a command that does as expected passes, for texts without NUL that do not end with a line feed. -/
theorem C133_sound (e : Bytes) (r : Ran) (h : AsExpected e r) (h0 : (0 : UInt8) ∉ e) (hl : ∀ c, e.getLast? = some c → c ≠ 10) : oExpect e r = 0 := by
  obtain ⟨-, h2, h3⟩ := h
  refine (C133_passes e r).mpr ⟨hl, 1, ?_⟩
  rw [quiet_all r h2, h3, List.filter_append, List.filter_eq_self.mpr]
  · rfl
  · intro c hc
    simp only [decide_not, Bool.not_eq_eq_eq_not, Bool.not_true, decide_eq_false_iff_not]
    rintro rfl
    exact h0 hc

/-- C133, the part of the other half that holds: if a command that writes one line of NUL-free text to standard output and nothing else passes, that line is the expected
text. -/
theorem C133_line_partial (e t : Bytes) (s : Nat) (h0 : (0 : UInt8) ∉ t) (hl : (10 : UInt8) ∉ t) : oExpect e ⟨[.out (t ++ [10])], s⟩ = 0 ↔ e = t := by
  rw [C133_passes]
  have hf : (t ++ [10]).filter (· ≠ 0) = t ++ [10] := by
    rw [List.filter_eq_self]
    intro c hc
    simp only [decide_not, Bool.not_eq_eq_eq_not, Bool.not_true, decide_eq_false_iff_not]
    rintro rfl
    simp at hc
    exact h0 hc
  have ha : (⟨[.out (t ++ [10])], s⟩ : Ran).all = t ++ [10] := by simp [Ran.all]
  have hlast : ∀ c, t.getLast? = some c → c ≠ 10 := by
    rintro c hc rfl
    exact hl (List.mem_of_getLast? hc)
  rw [ha, hf, ← chop_spec]
  have := chop_append t 1 hlast
  rw [show List.replicate 1 (10 : UInt8) = [10] from rfl] at this
  rw [this]
  exact eq_comm

/-- C133 is false of the status: a command that writes what is expected and then fails or crashes passes. -/
theorem C133_status_false (e : Bytes) (r : Ran) (h : AsExpected e r) (h0 : (0 : UInt8) ∉ e) (hl : ∀ c, e.getLast? = some c → c ≠ 10) (s : Nat) (hs : s ≠ 0) :
    oExpect e { r with status := s } = 0 ∧ ¬ AsExpected e { r with status := s } :=
  ⟨C133_sound e r h h0 hl, fun h => hs h.1⟩

/-- C133 is false of the streams and of the bytes: these pass as well, an error message instead of a result, a line without line feed, empty lines at the end, and NUL
bytes anywhere. -/
theorem C133_bytes_false (e : Bytes) (h0 : (0 : UInt8) ∉ e) (hl : ∀ c, e.getLast? = some c → c ≠ 10) (n : Nat) (a b : Bytes) (hab : e = a ++ b) :
    oExpect e ⟨[.err (e ++ [10])], 0⟩ = 0 ∧ oExpect e ⟨[.out (e ++ List.replicate n 10)], 0⟩ = 0 ∧ oExpect e ⟨[.out a, .err (List.replicate n 0), .out (b ++ [10])], 0⟩ = 0 ∧
    ¬ AsExpected e ⟨[.err (e ++ [10])], 0⟩ ∧ (n ≠ 1 → ¬ AsExpected e ⟨[.out (e ++ List.replicate n 10)], 0⟩) := by
  have hf : ∀ x : Bytes, (0 : UInt8) ∉ x → x.filter (· ≠ 0) = x := by
    intro x hx
    rw [List.filter_eq_self]
    intro c hc
    simp only [decide_not, Bool.not_eq_eq_eq_not, Bool.not_true, decide_eq_false_iff_not]
    rintro rfl
    exact hx hc
  have h10 : ∀ n : Nat, (0 : UInt8) ∉ List.replicate n (10 : UInt8) := fun n h => by
    have := List.eq_of_mem_replicate h
    revert this
    decide
  have hz : (List.replicate n (0 : UInt8)).filter (· ≠ 0) = [] := by
    rw [List.filter_eq_nil_iff]
    intro c hc
    simp [List.eq_of_mem_replicate hc]
  have hall : ∀ m : Nat, (e ++ List.replicate m (10 : UInt8)).filter (· ≠ 0) = e ++ List.replicate m 10 := fun m =>
    hf _ (by simp only [List.mem_append, not_or]; exact ⟨h0, h10 m⟩)
  refine ⟨(C133_passes _ _).mpr ⟨hl, 1, ?_⟩, (C133_passes _ _).mpr ⟨hl, n, ?_⟩, (C133_passes _ _).mpr ⟨hl, 1, ?_⟩, ?_, ?_⟩
  · simpa [Ran.all] using hall 1
  · simpa [Ran.all] using hall n
  · have : (⟨[.out a, .err (List.replicate n 0), .out (b ++ [10])], 0⟩ : Ran).all = a ++ (List.replicate n 0 ++ (b ++ [10])) := by simp [Ran.all]
    rw [this, List.filter_append, List.filter_append, hz, List.nil_append, ← List.filter_append, ← List.append_assoc, ← hab]
    exact hall 1
  · rintro ⟨-, -, h⟩
    simp at h
  · rintro hn ⟨-, -, h⟩
    simp only [List.flatMap_cons, List.flatMap_nil, List.append_nil] at h
    have := List.append_cancel_left h
    have := congrArg List.length this
    simp at this
    exact hn this

/-- C133: under `set -e` a script ends with status 0 exactly if all its checks pass; then all its commands were run. Otherwise what was run ends with the first command whose
check failed. -/
theorem C133_script (cs : List (Bytes × Ran)) :
    ((script cs).1 = 0 ↔ ∀ c ∈ cs, oExpect c.1 c.2 = 0) ∧ ((script cs).1 = 0 → (script cs).2 = cs.map (·.2)) ∧
    ((script cs).1 ≠ 0 → ∃ before c after, cs = before ++ c :: after ∧ (∀ b ∈ before, oExpect b.1 b.2 = 0) ∧ oExpect c.1 c.2 ≠ 0 ∧
      (script cs).2 = before.map (·.2) ++ [c.2]) := by
  induction cs with
  | nil => simp [script]
  | cons c cs ih =>
    obtain ⟨e, r⟩ := c
    obtain ⟨h1, h2, h3⟩ := ih
    by_cases h : oExpect e r = 0
    · have es : script ((e, r) :: cs) = ((script cs).1, r :: (script cs).2) := by rw [script, if_pos h]
      rw [es]
      refine ⟨by simp [h1, h], fun hs => by simp [h2 hs], fun hs => ?_⟩
      obtain ⟨before, c, after, e1, e2, e3, e4⟩ := h3 hs
      refine ⟨(e, r) :: before, c, after, by simp [e1], ?_, e3, by simp [e4]⟩
      intro b hb
      rcases List.mem_cons.mp hb with rfl | hb
      · exact h
      · exact e2 b hb
    · have es : script ((e, r) :: cs) = (oExpect e r, [r]) := by rw [script, if_neg h]
      rw [es]
      refine ⟨by simp [h], fun hs => absurd hs h, fun _ => ⟨[], (e, r), cs, rfl, by simp, h, rfl⟩⟩

/-- C133 for `eni_run`: if it prints a line (its results have no NUL, and here no line feed), the check passes exactly if the line is the expected one. -/
theorem C133_tool_partial (e t : Bytes) (d : Done) (hd : d.out = t ++ [10]) (h0 : (0 : UInt8) ∉ t) (hl : (10 : UInt8) ∉ t) (he : d.err = []) :
    oExpect e ⟨[.out d.out, .err d.err], d.status⟩ = 0 ↔ e = t := by
  rw [hd, he, ← C133_line_partial e t d.status h0 hl]
  simp [C133_passes, Ran.all]

/-! Cases that meet the hypotheses -/

example : AsExpected [49, 50, 48] ⟨[.out [49], .out [50, 48, 10]], 0⟩ := ⟨rfl, by simp, rfl⟩
example := C133_sound [49, 50, 48] ⟨[.out [49], .out [50, 48, 10]], 0⟩ ⟨rfl, by simp, rfl⟩ (by decide) (by decide)
example := C133_status_false [49, 50, 48] ⟨[.out [49], .out [50, 48, 10]], 0⟩ ⟨rfl, by simp, rfl⟩ (by decide) (by decide) 139 (by decide)
example := C133_line_partial [49] [49, 50] 139 (by decide) (by decide)
example := C133_bytes_false [49, 50] (by decide) (by decide) 3 [49] [50] rfl
example := C133_tool_partial [49, 50, 48] [49, 50, 48] ⟨[49, 50, 48, 10], [], 0⟩ rfl (by decide) (by decide) rfl
example : script [([49], ⟨[.out [49, 10]], 0⟩), ([50], ⟨[.out [49, 10]], 0⟩), ([49], ⟨[], 0⟩)] = (1, [⟨[.out [49, 10]], 0⟩, ⟨[.out [49, 10]], 0⟩]) := by rfl

end Eni.Props
