import Verif.Proofs.ConsensusReport
import Verif.Props.Consensus
/-!
# C128: the report of the consensus script shows what was observed
-/
namespace Eni.Props
open Spec Json Consensus

/-- The observations of a run: its status and its outputs as text. -/
def Observed (p : Proc) (t : Text) : Prop := p.status = t.status ∧ decode p.out = some t.out ∧ decode p.err = some t.err

/-- White space of Unicode as Python's `str.isspace` has it: the characters of the bidirectional classes WS, B and S and of the category Zs. -/
def UniSpace (c : Char) : Prop := c.toNat ∈ [0x9, 0xa, 0xb, 0xc, 0xd, 0x1c, 0x1d, 0x1e, 0x1f, 0x20, 0x85, 0xa0, 0x1680, 0x2000, 0x2001, 0x2002, 0x2003, 0x2004,
  0x2005, 0x2006, 0x2007, 0x2008, 0x2009, 0x200a, 0x2028, 0x2029, 0x202f, 0x205f, 0x3000]

theorem isSpace_iff (c : Char) : isSpace c = true ↔ UniSpace c := by
  simp only [isSpace, UniSpace, Bool.or_eq_true, Bool.and_eq_true, decide_eq_true_eq, List.mem_cons, List.not_mem_nil, or_false]
  omega

/-- The same text up to white space at the end; a text is never taken for the empty text. -/
def SameButEnd (s t : List Char) : Prop :=
  (s = [] ↔ t = []) ∧ ∃ r u v, s = r ++ u ∧ t = r ++ v ∧ (∀ c ∈ u, UniSpace c) ∧ ∀ c ∈ v, UniSpace c

theorem rstrip_same {s t : List Char} :
    rstrip s = rstrip t ↔ ∃ r u v, s = r ++ u ∧ t = r ++ v ∧ (∀ c ∈ u, UniSpace c) ∧ ∀ c ∈ v, UniSpace c := by
  simp only [← isSpace_iff]
  constructor
  · intro h
    have key : ∀ s, ∃ w, s = rstrip s ++ w ∧ ∀ c ∈ w, isSpace c = true := by
      intro s
      obtain ⟨w, h1, h2⟩ := dropWhile_split isSpace s.reverse
      refine ⟨w.reverse, ?_, fun c hc => h2 c (List.mem_reverse.mp hc)⟩
      have := congrArg List.reverse h1
      rw [List.reverse_reverse, List.reverse_append] at this
      exact this
    obtain ⟨u, hu, hu'⟩ := key s
    obtain ⟨v, hv, hv'⟩ := key t
    exact ⟨rstrip s, u, v, hu, h ▸ hv, hu', hv'⟩
  · rintro ⟨r, u, v, rfl, rfl, hu, hv⟩
    rw [rstrip_append hu, rstrip_append hv]

theorem finishPrint_later {t : TestCase} {f q : Text} {p : Proc} (hf : t.first = some f) (hc : t.count ≠ 1) (h : Observed p q) :
    t.finishPrint p = (if f = q then [] else caseprint f expected ++ caseprint q gotThis) ∧
    t.finishOne p = some ({ t with same := decide (f = q) }, decide (f = q)) := by
  obtain ⟨h1, h2, h3⟩ := h
  have hq : (⟨p.status, q.out, q.err⟩ : Text) = q := by rw [h1]
  have hcmp : casecmp f q = decide (f = q) := by
    rw [Bool.eq_iff_iff]
    simp only [casecmp, Bool.and_eq_true, decide_eq_true_eq]
    constructor
    · rintro ⟨a, b, c⟩; cases f; cases q; simp_all
    · rintro rfl; exact ⟨rfl, rfl, rfl⟩
  constructor
  · simp only [TestCase.finishPrint, h2, h3, if_neg hc, hf, hq, hcmp, decide_eq_true_eq]
  · simp only [TestCase.finishOne, h2, h3, Option.bind_eq_bind, Option.bind_some, if_neg hc, hf, hq, hcmp]

/-- the rounds after the first -/
theorem loopPrint_later (run : Nat → Proc) (obs : Nat → Text) (f : Text) : ∀ n i, 1 ≤ i → (∀ j, i ≤ j → j < i + n → Observed (run j) (obs j)) →
    ((∀ j, i ≤ j → j < i + n → obs j = f) → repeatLoopPrint run n i ⟨some f, i, true⟩ = [] ∧
      repeatLoop run n i ⟨some f, i, true⟩ = some ⟨some f, i + n, true⟩) ∧
    (∀ j, i ≤ j → j < i + n → obs j ≠ f → (∀ k, i ≤ k → k < j → obs k = f) →
      repeatLoopPrint run n i ⟨some f, i, true⟩ = caseprint f expected ++ caseprint (obs j) gotThis ∧
      ∃ t, repeatLoop run n i ⟨some f, i, true⟩ = some t ∧ t.same = false) := by
  intro n
  induction n with
  | zero => intro i _ _; exact ⟨fun _ => ⟨rfl, rfl⟩, fun j h1 h2 => by omega⟩
  | succ n ih =>
    intro i hi ho
    obtain ⟨p1, p2⟩ := finishPrint_later (t := (⟨some f, i, true⟩ : TestCase).startOne) (f := f) rfl
      (by show i + 1 ≠ 1; omega) (ho i (by omega) (by omega))
    obtain ⟨k1, k2⟩ := ih (i + 1) (by omega) fun j h1 h2 => ho j (by omega) (by omega)
    by_cases he : f = obs i
    · rw [if_pos he] at p1
      rw [decide_eq_true he] at p2
      have e1 : repeatLoopPrint run (n + 1) i ⟨some f, i, true⟩ = repeatLoopPrint run n (i + 1) ⟨some f, i + 1, true⟩ := by
        rw [repeatLoopPrint, p1, p2, List.nil_append]; rfl
      have e2 : repeatLoop run (n + 1) i ⟨some f, i, true⟩ = repeatLoop run n (i + 1) ⟨some f, i + 1, true⟩ := by
        rw [repeatLoop, p2]; rfl
      rw [e1, e2]
      refine ⟨fun h => ?_, fun j h1 h2 h3 h4 => ?_⟩
      · obtain ⟨a, b⟩ := k1 fun j h1 h2 => h j (by omega) (by omega)
        exact ⟨a, by rw [b, show i + 1 + n = i + (n + 1) by omega]⟩
      · rcases Nat.eq_or_lt_of_le h1 with rfl | h5
        · exact absurd he.symm h3
        · exact k2 j h5 (by omega) h3 fun k h6 h7 => h4 k (by omega) h7
    · rw [if_neg he] at p1
      simp only [he, decide_false] at p2
      refine ⟨fun h => absurd (h i (by omega) (by omega)).symm he, fun j h1 h2 h3 h4 => ?_⟩
      have hj : j = i := by
        rcases Nat.eq_or_lt_of_le h1 with h5 | h5
        · exact h5.symm
        · exact absurd (h4 i (by omega) h5).symm he
      subst hj
      refine ⟨?_, ?_⟩
      · simp only [repeatLoopPrint, p1, p2, List.append_nil]
      · refine ⟨_, by simp only [repeatLoop, p2]; rfl, rfl⟩

/-- C128. What is printed about a case, for any number of runs with any observations: the common observation without a mark if all runs
agree; otherwise the first one marked as expected and the earliest one that differs from it marked as got. -/
theorem C128_report (run : Nat → Proc) (obs : Nat → Text) (n : Nat) (hn : 2 ≤ n) (ho : ∀ i < n, Observed (run i) (obs i)) :
    ((∀ i < n, obs i = obs 0) → repeatPrint run n = caseprint (obs 0) []) ∧
    (∀ j < n, obs j ≠ obs 0 → (∀ k < j, obs k = obs 0) →
      repeatPrint run n = caseprint (obs 0) expected ++ caseprint (obs j) gotThis) := by
  obtain ⟨n, rfl⟩ : ∃ m, n = m + 1 := ⟨n - 1, by omega⟩
  obtain ⟨h1, h2, h3⟩ := ho 0 (by omega)
  have hf : TestCase.init.startOne.finishOne (run 0) = some (⟨some (obs 0), 1, true⟩, true) := by
    have hc : TestCase.init.startOne.count = 1 := rfl
    simp only [TestCase.finishOne, h2, h3, Option.bind_eq_bind, Option.bind_some, if_pos hc, h1]
    rfl
  have hp : TestCase.init.startOne.finishPrint (run 0) = [] := by
    have hc : TestCase.init.startOne.count = 1 := rfl
    simp only [TestCase.finishPrint, h2, h3, if_pos hc]
  have e1 : repeatLoopPrint run (n + 1) 0 TestCase.init = repeatLoopPrint run n 1 ⟨some (obs 0), 1, true⟩ := by
    simp only [repeatLoopPrint, hp, hf, List.nil_append]
  have e2 : repeatLoop run (n + 1) 0 TestCase.init = repeatLoop run n 1 ⟨some (obs 0), 1, true⟩ := by
    simp only [repeatLoop, hf]; rfl
  obtain ⟨k1, k2⟩ := loopPrint_later run obs (obs 0) n 1 (by omega) fun j _ hj => ho j (by omega)
  unfold repeatPrint
  rw [e1, e2]
  refine ⟨fun h => ?_, fun j hj hne hmin => ?_⟩
  · obtain ⟨a, b⟩ := k1 fun j _ hj => h j (by omega)
    rw [a, b]
    have hc : ¬(1 + n ≤ 1) := by omega
    simp only [TestCase.summarizePrint, List.nil_append, decide_eq_false hc, Bool.not_true, Bool.or_self, Bool.false_eq_true, if_false]
  · have hj1 : 1 ≤ j := by
      rcases Nat.eq_zero_or_pos j with rfl | h
      · exact absurd rfl hne
      · exact h
    obtain ⟨a, t, b, c⟩ := k2 j hj1 (by omega) hne fun k _ hk => hmin k hk
    rw [a, b]
    simp [TestCase.summarizePrint, c]

/-- C128, what holds: for outputs of one line, two reports with the same mark are the same text exactly if the statuses are equal and the
outputs are the same but for white space at their end. -/
theorem C128_visible_partial (a b : Text) (pre : List Char) (hpre : '\n' ∉ pre) (h1 : '\n' ∉ rstrip a.out.toList) (h2 : '\n' ∉ rstrip a.err.toList)
    (h3 : '\n' ∉ rstrip b.out.toList) (h4 : '\n' ∉ rstrip b.err.toList) :
    caseprint a pre = caseprint b pre ↔
      a.status = b.status ∧ SameButEnd a.out.toList b.out.toList ∧ SameButEnd a.err.toList b.err.toList := by
  have hl : ∀ t : Text, '\n' ∉ rstrip t.out.toList → '\n' ∉ rstrip t.err.toList → ∀ l ∈ lines t pre, '\n' ∉ l := by
    intro t ho he l hl
    have hs := intStr_line t.status
    unfold lines at hl
    simp only [List.mem_append, List.mem_cons, List.not_mem_nil, or_false] at hl
    rcases hl with ((rfl | hl) | hl) | rfl
    · simp [hpre, hs]
    · split at hl
      · cases hl
      · simp only [List.mem_cons, List.not_mem_nil, or_false] at hl
        subst hl
        simp [hpre, ho]
    · split at hl
      · cases hl
      · simp only [List.mem_cons, List.not_mem_nil, or_false] at hl
        subst hl
        simp [hpre, he]
    · simp
  unfold SameButEnd
  rw [← rstrip_same, ← rstrip_same, caseprint_lines, caseprint_lines]
  constructor
  · intro h
    have h := unlines_inj (hl a h1 h2) (hl b h3 h4) h
    unfold lines at h
    by_cases ao : a.out.toList = [] <;> by_cases bo : b.out.toList = [] <;> by_cases ae : a.err.toList = [] <;>
      by_cases be : b.err.toList = [] <;> simp [ao, bo, ae, be] at h <;> simp only [ao, bo, ae, be] <;> simp_all
    all_goals first | exact intStr_inj h.1 | exact intStr_inj h
  · rintro ⟨e1, ⟨e2, e3⟩, e4, e5⟩
    unfold lines
    simp only [e1, e2, e3, e4, e5]

/-- C128 is false: runs that differ in white space at the end of an output are reported as different with the same text. -/
theorem C128_trailing_false (st : Int) (out err : String) (w : List Char) (ho : out.toList ≠ []) (hw : w ≠ []) (hs : ∀ c ∈ w, UniSpace c)
    (pre : List Char) :
    casecmp ⟨st, out, err⟩ ⟨st, out ++ String.ofList w, err⟩ = false ∧
    caseprint ⟨st, out ++ String.ofList w, err⟩ pre = caseprint ⟨st, out, err⟩ pre := by
  constructor
  · simp only [casecmp, Bool.and_eq_false_iff, decide_eq_false_iff_not]
    right; left
    intro h
    have := congrArg String.toList h
    simp at this
    exact hw this
  · simp only [caseprint, String.toList_append, String.toList_ofList, rstrip_append fun c hc => (isSpace_iff c).mpr (hs c hc)]
    simp [ho]

/-- C128 is false: an output of several lines can look like an output and an error output. -/
theorem C128_embedded_false (st : Int) (pre : List Char) :
    casecmp ⟨st, "a", "b"⟩ ⟨st, String.ofList (['a', '\n'] ++ pre ++ "STDERR: b".toList), ""⟩ = false ∧
    caseprint ⟨st, "a", "b"⟩ pre = caseprint ⟨st, String.ofList (['a', '\n'] ++ pre ++ "STDERR: b".toList), ""⟩ pre := by
  constructor
  · simp [casecmp]
  · have hb : isSpace 'b' = false := by decide
    have ha : isSpace 'a' = false := by decide
    simp [caseprint, printLine, rstrip, hb, ha]

/-- Non-trivial cases of the hypotheses. -/
example := (C128_report (fun i => ⟨0, if i = 2 then [98] else [97], []⟩) (fun i => ⟨0, if i = 2 then "b" else "a", ""⟩) 5 (by decide)
  (fun i _ => by by_cases h : i = 2 <;> simp [Observed, h] <;> decide +kernel)).2 2 (by decide) (by simp) (fun k hk => by
    simp [show k ≠ 2 by omega])

example : caseprint ⟨0, "x", ""⟩ expected ≠ caseprint ⟨0, "y\n", ""⟩ expected := by
  rw [Ne, C128_visible_partial _ _ _ (by decide) (by decide) (by decide) (by decide) (by decide)]
  rintro ⟨_, ⟨_, h⟩, _⟩
  rw [← rstrip_same] at h
  exact absurd h (by decide)

example := C128_trailing_false 0 "\"abc\"" "" ['\n'] (by decide) (by decide) (by simp [UniSpace]) expected

end Eni.Props
