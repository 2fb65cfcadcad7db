import Verif.Model.Consensus
import Verif.Props.Cli
/-!
# Properties of the consensus test: C56, C67, C68
-/
namespace Eni.Props
open Spec Json Consensus

theorem decode_inj {a b : Bytes} {s : String} (ha : decode a = some s) (hb : decode b = some s) : a = b := by
  have key : ∀ a s, decode a = some s → s.toUTF8 = ⟨a.toArray⟩ := by
    intro a s h
    unfold decode String.fromUTF8? at h
    split at h
    · cases h; rfl
    · cases h
  have := (key a s ha).symm.trans (key b s hb)
  injection this with h
  simpa using h

/-- Standard output and standard error are valid UTF-8. -/
def Readable (p : Proc) : Prop := ∃ s t, decode p.out = some s ∧ decode p.err = some t

/-- All of the first `n` executions had the same status, output and error output. -/
def SameRuns (run : Nat → Proc) (n : Nat) : Prop := ∀ i < n, run i = run 0

theorem finish_later {t : TestCase} {f : Text} (hf : t.first = some f) (hc : t.count ≠ 1) (p0 p : Proc) (h0 : decode p0.out = some f.out)
    (h1 : decode p0.err = some f.err) (h2 : p0.status = f.status) :
    (p = p0 → t.finishOne p = some ({ t with same := true }, true)) ∧
    (p ≠ p0 → ∀ x, t.finishOne p = some x → x = ({ t with same := false }, false)) ∧
    (Readable p → ∃ x, t.finishOne p = some x) := by
  refine ⟨?_, ?_, ?_⟩
  · rintro rfl
    simp only [TestCase.finishOne, h0, h1, h2, hf, if_neg hc, Option.bind_eq_bind, Option.bind_some]
    simp [casecmp]
  · intro hne x hx
    unfold TestCase.finishOne at hx
    cases ho : decode p.out with
    | none => rw [ho] at hx; cases hx
    | some o =>
      cases he : decode p.err with
      | none => rw [ho, he] at hx; cases hx
      | some e =>
        simp only [ho, he, hf, if_neg hc, Option.bind_eq_bind, Option.bind_some, Option.some.injEq] at hx
        have hcmp : casecmp f ⟨p.status, o, e⟩ = false := by
          by_contra hcon
          have : casecmp f ⟨p.status, o, e⟩ = true := by simpa using hcon
          simp only [casecmp, Bool.and_eq_true, decide_eq_true_eq] at this
          obtain ⟨a, b, c⟩ := this
          apply hne
          obtain ⟨ps, po, pe⟩ := p
          obtain ⟨qs, qo, qe⟩ := p0
          simp only at *
          rw [← b] at ho
          rw [← c] at he
          rw [decode_inj ho h0, decode_inj he h1, h2, a]
        rw [hcmp] at hx
        rw [hf]
        exact hx.symm
  · rintro ⟨o, e, ho, he⟩
    simp only [TestCase.finishOne, ho, he, hf, if_neg hc, Option.bind_eq_bind, Option.bind_some]
    exact ⟨_, rfl⟩

/-- The rounds after the first one. -/
theorem repeatLoop_later (run : Nat → Proc) (f : Text) (p0 : Proc) (h0 : decode p0.out = some f.out)
    (h1 : decode p0.err = some f.err) (h2 : p0.status = f.status) (n : Nat) : ∀ i, 1 ≤ i →
    ((∀ j, i ≤ j → j < i + n → run j = p0) → repeatLoop run n i ⟨some f, i, true⟩ = some ⟨some f, i + n, true⟩) ∧
    ((∃ j, i ≤ j ∧ j < i + n ∧ run j ≠ p0) → ∀ t, repeatLoop run n i ⟨some f, i, true⟩ = some t → t.same = false) ∧
    ((∀ j, i ≤ j → j < i + n → Readable (run j)) → ∃ t, repeatLoop run n i ⟨some f, i, true⟩ = some t) := by
  induction n with
  | zero =>
    intro i hi
    refine ⟨fun _ => rfl, ?_, fun _ => ⟨_, rfl⟩⟩
    rintro ⟨j, a, b, _⟩
    omega
  | succ n ih =>
    intro i hi
    obtain ⟨e1, e2, e3⟩ := finish_later (t := ⟨some f, i + 1, true⟩) (f := f) rfl (by simp; omega) p0 (run i) h0 h1 h2
    obtain ⟨i1, i2, i3⟩ := ih (i + 1) (by omega)
    have hst : ((⟨some f, i, true⟩ : TestCase).startOne) = ⟨some f, i + 1, true⟩ := rfl
    by_cases hr : run i = p0
    · have hstep : repeatLoop run (n + 1) i ⟨some f, i, true⟩ = repeatLoop run n (i + 1) ⟨some f, i + 1, true⟩ := by
        rw [repeatLoop, hst, e1 hr]
        rfl
      rw [hstep]
      refine ⟨fun h => ?_, ?_, fun h => i3 fun j a b => h j (by omega) (by omega)⟩
      · rw [i1 fun j a b => h j (by omega) (by omega)]
        congr 2
        omega
      · rintro ⟨j, a, b, c⟩
        refine i2 ⟨j, ?_, by omega, c⟩
        by_contra hlt
        have : j = i := by omega
        exact c (this ▸ hr)
    · refine ⟨fun h => absurd (h i (by omega) (by omega)) hr, ?_, ?_⟩
      · rintro _ t ht
        rw [repeatLoop, hst] at ht
        cases hx : (⟨some f, i + 1, true⟩ : TestCase).finishOne (run i) with
        | none => rw [hx] at ht; cases ht
        | some x =>
          rw [hx, e2 hr x hx] at ht
          cases ht
          rfl
      · intro h
        obtain ⟨x, hx⟩ := e3 (h i (by omega) (by omega))
        rw [repeatLoop, hst, hx, e2 hr x hx]
        exact ⟨_, rfl⟩

/-- C56: the check reports success iff there were at least two executions, all were the same and their outputs are valid UTF-8. -/
theorem C56_success (run : Nat → Proc) (n : Nat) : repeat_ run n = some true ↔ 2 ≤ n ∧ SameRuns run n ∧ Readable (run 0) := by
  cases n with
  | zero => simp [repeat_, repeatLoop, TestCase.init, TestCase.summarize]
  | succ n =>
    cases ho : decode (run 0).out with
    | none =>
      have hn : ¬ Readable (run 0) := by rintro ⟨s, t, h, _⟩; rw [ho] at h; cases h
      simp only [hn, and_false, iff_false]
      simp [repeat_, repeatLoop, TestCase.finishOne, ho]
    | some o =>
      cases he : decode (run 0).err with
      | none =>
        have hn : ¬ Readable (run 0) := by rintro ⟨s, t, _, h⟩; rw [he] at h; cases h
        simp only [hn, and_false, iff_false]
        simp [repeat_, repeatLoop, TestCase.finishOne, ho, he]
      | some e =>
        obtain ⟨h1, h2, _⟩ := repeatLoop_later run ⟨(run 0).status, o, e⟩ (run 0) ho he rfl n 1 (by omega)
        have hfirst : repeatLoop run (n + 1) 0 TestCase.init = repeatLoop run n 1 ⟨some ⟨(run 0).status, o, e⟩, 1, true⟩ := by
          rw [repeatLoop]
          simp [TestCase.finishOne, TestCase.startOne, TestCase.init, ho, he]
        have hR : Readable (run 0) := ⟨o, e, ho, he⟩
        simp only [hR, and_true]
        by_cases hs : SameRuns run (n + 1)
        · rw [repeat_, hfirst, h1 fun j _ b => hs j (by omega)]
          simp only [Option.bind_eq_bind, Option.bind_some, TestCase.summarize, hs, and_true]
          by_cases hn : n = 0
          · simp [hn]
          · have : ¬ 1 + n ≤ 1 := by omega
            simp [this]
            omega
        · simp only [hs, and_false, iff_false]
          rw [repeat_, hfirst]
          intro hcon
          cases hl : repeatLoop run n 1 ⟨some ⟨(run 0).status, o, e⟩, 1, true⟩ with
          | none => rw [hl] at hcon; cases hcon
          | some t =>
            have hsame : t.same = false := by
              refine h2 ?_ t hl
              unfold SameRuns at hs
              push Not at hs
              obtain ⟨i, hi, hne⟩ := hs
              refine ⟨i, ?_, by omega, hne⟩
              by_contra h0
              have : i = 0 := by omega
              exact hne (by rw [this])
            rw [hl] at hcon
            simp [TestCase.summarize, hsame] at hcon

/-- C56, the part that holds: if all outputs are valid UTF-8 the check answers, and it answers true iff all of at least two executions were the
same. -/
theorem C56_partial (run : Nat → Proc) (n : Nat) (h : ∀ i < n, Readable (run i)) : ∃ b, repeat_ run n = some b ∧ (b = true ↔ 2 ≤ n ∧ SameRuns run n) := by
  have hsome : ∃ b, repeat_ run n = some b := by
    cases n with
    | zero => exact ⟨_, rfl⟩
    | succ n =>
      obtain ⟨o, e, ho, he⟩ := h 0 (by omega)
      obtain ⟨_, _, h3⟩ := repeatLoop_later run ⟨(run 0).status, o, e⟩ (run 0) ho he rfl n 1 (by omega)
      have hfirst : repeatLoop run (n + 1) 0 TestCase.init = repeatLoop run n 1 ⟨some ⟨(run 0).status, o, e⟩, 1, true⟩ := by
        rw [repeatLoop]
        simp [TestCase.finishOne, TestCase.startOne, TestCase.init, ho, he]
      obtain ⟨t, ht⟩ := h3 fun j _ b => h j (by omega)
      rw [repeat_, hfirst, ht]
      exact ⟨_, rfl⟩
  obtain ⟨b, hb⟩ := hsome
  refine ⟨b, hb, ?_⟩
  have := C56_success run n
  rw [hb, Option.some.injEq] at this
  rw [this]
  constructor
  · rintro ⟨a, b, _⟩; exact ⟨a, b⟩
  · rintro ⟨a, b⟩; exact ⟨a, b, h 0 (by omega)⟩

example := C56_partial (fun i => ⟨i, [97], []⟩) 3 (fun _ _ => ⟨"a", "", by decide +revert +kernel, by decide +revert +kernel⟩)

/-- C56 is false for other outputs: identical executions make the script fail with an exception. An example is the correct result of
`eni_run` for the operation reverse and the string `é`. -/
theorem C56_utf8_false (L : Layout) (lib name : Bytes) (args : List Bytes) (ha : positional args = [lib, name, Value.print (.arr [.str [195, 169]])]) :
    ∃ d, Cli.runMain (oneLib lib name Reverse.op L) args = .ok d ∧ d.status = 0 ∧
      ∀ n, 1 ≤ n → SameRuns (fun _ => ⟨d.status, d.out, d.err⟩) n ∧ repeat_ (fun _ => ⟨d.status, d.out, d.err⟩) n = none := by
  refine ⟨_, (C66_reverse L lib name [195, 169] args ha).1, rfl, ?_⟩
  intro n hn
  refine ⟨fun _ _ => rfl, ?_⟩
  obtain ⟨n, rfl⟩ : ∃ m, n = m + 1 := ⟨n - 1, by omega⟩
  have : decode (Value.print (.arr [.str ([169, 195] : Bytes)]) ++ [10]) = none := by decide +kernel
  simp [repeat_, repeatLoop, TestCase.finishOne, this]

example : Readable ⟨0, [97], []⟩ ∧ repeat_ (fun _ => ⟨0, [97], []⟩) 2 = some true ∧ repeat_ (fun i => ⟨i, [97], []⟩) 3 = some false := by
  refine ⟨⟨"a", "", by decide +kernel, by decide +kernel⟩, by decide +kernel, by decide +kernel⟩

/-- What the script asks of case number `k`: a non-empty operation name, arguments that can be expanded, and `n` equal executions with
outputs that are valid UTF-8. -/
def CaseGood (gen : Nat → UInt8 → Bytes → Option Bytes) (exec : Nat → Bytes → Bytes → Bytes → Nat → Proc) (n k : Nat) (c : Bytes × List Bytes) : Prop :=
  ∃ op args params, c.2 = op :: args ∧ op ≠ [] ∧ expand (gen k) args = some params ∧ SameRuns (exec k c.1 op params) n ∧
    Readable (exec k c.1 op params 0)

theorem testLoop_spec (gen : Nat → UInt8 → Bytes → Option Bytes) (exec : Nat → Bytes → Bytes → Bytes → Nat → Proc) (n : Nat) (hn : 2 ≤ n)
    (cases : List (Bytes × List Bytes)) : ∀ r : TestResult,
    ((∀ k c, cases[k]? = some c → CaseGood gen exec n (r.tests + k) c) →
      testLoop gen exec n cases r = some ⟨r.tests + cases.length, r.run + cases.length, r.failed⟩) ∧
    (∀ r', testLoop gen exec n cases r = some r' → r'.tests = r.tests + cases.length ∧ r'.run ≤ r.run + cases.length ∧ r.failed ≤ r'.failed ∧
      (r'.run = r.run + cases.length → r'.failed = r.failed → ∀ k c, cases[k]? = some c → CaseGood gen exec n (r.tests + k) c)) := by
  induction cases with
  | nil =>
    intro r
    refine ⟨fun _ => rfl, ?_⟩
    intro r' h
    cases h
    exact ⟨rfl, Nat.le_refl _, Nat.le_refl _, fun _ _ k c h => by simp at h⟩
  | cons c0 rest ih =>
    intro r
    obtain ⟨lib, args⟩ := c0
    -- a case that is passed over
    have skip : (testLoop gen exec n ((lib, args) :: rest) r = testLoop gen exec n rest { r with tests := r.tests + 1 }) →
        ∀ r', testLoop gen exec n ((lib, args) :: rest) r = some r' → r'.tests = r.tests + (rest.length + 1) ∧ r'.run ≤ r.run + (rest.length + 1) ∧
          r.failed ≤ r'.failed ∧ (r'.run = r.run + (rest.length + 1) → r'.failed = r.failed →
            ∀ k c, ((lib, args) :: rest)[k]? = some c → CaseGood gen exec n (r.tests + k) c) := by
      intro he r' h
      rw [he] at h
      obtain ⟨a, b, c, _⟩ := (ih _).2 r' h
      simp only at a b c
      exact ⟨by omega, by omega, by omega, fun h => by omega⟩
    cases args with
    | nil =>
      constructor
      · intro h
        obtain ⟨op, as, ps, h1, _⟩ := h 0 (lib, []) rfl
        cases h1
      · exact skip rfl
    | cons op as =>
      cases hx : expand (gen r.tests) as with
      | none =>
        constructor
        · intro h
          obtain ⟨op', as', ps, h1, _, h2, _⟩ := h 0 (lib, op :: as) rfl
          cases h1
          rw [Nat.add_zero, hx] at h2
          cases h2
        · exact skip (by simp [testLoop, startOne, hx])
      | some params =>
        have hne : params ≠ [] := by
          unfold expand at hx
          cases hh : expandAll (gen r.tests) as with
          | none => rw [hh] at hx; cases hx
          | some xs => rw [hh] at hx; cases hx; simp
        by_cases hop : op = []
        · constructor
          · intro h
            obtain ⟨op', as', ps, h1, h2, _⟩ := h 0 (lib, op :: as) rfl
            cases h1
            exact absurd hop h2
          · exact skip (by simp [testLoop, startOne, hx, hop])
        · have hstep : testLoop gen exec n ((lib, op :: as) :: rest) r = (repeat_ (exec r.tests lib op params) n).bind fun s =>
              testLoop gen exec n rest (TestResult.finishOne { r with tests := r.tests + 1 } s) := by
            simp [testLoop, startOne, hx, hop, hne]
          have hC := C56_success (exec r.tests lib op params) n
          constructor
          · intro h
            obtain ⟨op', as', ps, h1, _, h2, h3, h4⟩ := h 0 (lib, op :: as) rfl
            cases h1
            rw [Nat.add_zero] at h2 h3 h4
            rw [hx] at h2
            cases h2
            rw [hstep, hC.2 ⟨hn, h3, h4⟩]
            show testLoop gen exec n rest _ = _
            rw [(ih _).1]
            · simp [TestResult.finishOne]
              omega
            · intro k c hk
              have := h (k + 1) c hk
              simp only [TestResult.finishOne]
              rwa [show r.tests + 1 + k = r.tests + (k + 1) by omega]
          · intro r' h
            rw [hstep] at h
            cases hr : repeat_ (exec r.tests lib op params) n with
            | none => rw [hr] at h; cases h
            | some s =>
              rw [hr, Option.bind_some] at h
              obtain ⟨a, b, c, d⟩ := (ih _).2 r' h
              simp only [TestResult.finishOne] at a b c d
              simp only [List.length_cons]
              refine ⟨by omega, by omega, by omega, ?_⟩
              intro e f k c' hk
              cases s with
              | false => simp at c; omega
              | true =>
                simp only [if_true, Nat.add_zero] at d
                cases k with
                | zero =>
                  cases hk
                  obtain ⟨_, h3, h4⟩ := hC.1 hr
                  exact ⟨op, as, params, rfl, hop, hx, h3, h4⟩
                | succ k =>
                  have := d (by omega) f k c' hk
                  rwa [show r.tests + 1 + k = r.tests + (k + 1) by omega] at this

/-- C67: the script ends with status 0 iff more than one repetition is asked for and every case is good: nothing is left out and no
difference is missed. -/
theorem C67_script (gen : Nat → UInt8 → Bytes → Option Bytes) (exec : Nat → Bytes → Bytes → Bytes → Nat → Proc) (n : Nat)
    (cases : List (Bytes × List Bytes)) :
    scriptStatus gen exec n cases = 0 ↔ 1 < n ∧ ∀ k c, cases[k]? = some c → CaseGood gen exec n k c := by
  unfold scriptStatus runTests
  by_cases hn : n > 1
  · rw [if_pos hn]
    obtain ⟨h1, h2⟩ := testLoop_spec gen exec n hn cases ⟨0, 0, 0⟩
    constructor
    · intro h
      refine ⟨hn, ?_⟩
      cases hl : testLoop gen exec n cases ⟨0, 0, 0⟩ with
      | none => rw [hl] at h; cases h
      | some r =>
        obtain ⟨a, b, c, d⟩ := h2 r hl
        rw [hl] at h
        have hs : r.summarize = true := by
          by_contra hcon
          have : r.summarize = false := by simpa using hcon
          simp [this] at h
        unfold TestResult.summarize at hs
        split at hs
        · cases hs
        · split at hs
          · cases hs
          · rename_i x y
            simp only [ne_eq, not_not] at x y
            have := d (by simp only [Nat.zero_add] at *; omega) y
            simpa using this
    · rintro ⟨_, h⟩
      rw [h1 (by simpa using h)]
      simp [TestResult.summarize]
  · rw [if_neg hn]
    constructor
    · intro h; cases h
    · rintro ⟨h, _⟩; exact absurd h hn

/-- C67: one difference anywhere makes the script fail. -/
theorem C67_difference (gen : Nat → UInt8 → Bytes → Option Bytes) (exec : Nat → Bytes → Bytes → Bytes → Nat → Proc) (n k i : Nat) (lib op params : Bytes)
    (args : List Bytes) (cases : List (Bytes × List Bytes)) (hk : cases[k]? = some (lib, op :: args)) (hx : expand (gen k) args = some params)
    (hi : i < n) (hd : exec k lib op params i ≠ exec k lib op params 0) : scriptStatus gen exec n cases = 1 := by
  have h : scriptStatus gen exec n cases ≠ 0 := by
    intro h
    obtain ⟨op', as', ps, h1, _, h2, h3, _⟩ := ((C67_script gen exec n cases).1 h).2 k _ hk
    cases h1
    rw [hx] at h2
    cases h2
    exact hd (h3 i hi)
  unfold scriptStatus at h ⊢
  split <;> simp_all

/-- the third execution of the second case differs -/
example := C67_difference (fun _ _ r => some r) (fun k _ _ _ i => ⟨if k = 1 ∧ i = 2 then 1 else 0, [97], []⟩) 3 1 2 [109] [112] [91, 93] []
  [([108], [[111], [115, 58, 65]]), ([109], [[112]])] (by decide) (by decide +kernel) (by decide) (by decide)

/-! ## Parameters -/

/-- No quote and no backslash. -/
def PlainText (s : Bytes) : Prop := 34 ∉ s ∧ 92 ∉ s

theorem plain_body {s : Bytes} (h : PlainText s) : StrBody s s := by
  induction s with
  | nil => exact .nil
  | cons c s ih =>
    obtain ⟨h1, h2⟩ := h
    simp only [List.mem_cons, not_or] at h1 h2
    exact .raw (Ne.symm h1.1) (Ne.symm h2.1) (ih ⟨h1.2, h2.2⟩)

theorem joinQuoted_elems (x : Bytes) (xs : List Bytes) (h : ∀ y ∈ x :: xs, PlainText y) : Elems (joinQuoted (x :: xs)) ((x :: xs).map .str) := by
  have nw : WS [] := fun c hc => by cases hc
  induction xs generalizing x with
  | nil =>
    have := Elems.one nw (JText.str (plain_body (h x List.mem_cons_self))) nw
    simpa [joinQuoted] using this
  | cons y ys ih =>
    have := Elems.cons nw (JText.str (plain_body (h x List.mem_cons_self))) nw (ih y fun z hz => h z (List.mem_cons_of_mem _ hz))
    simpa [joinQuoted] using this

/-- C68, the part that holds: if the generated strings contain neither quotes nor backslashes, the parameters are a JSON array of exactly these
strings. -/
theorem C68_partial (gen : UInt8 → Bytes → Option Bytes) (args xs : List Bytes) (hx : List.Forall₂ (fun a x => expandArg gen a = some x) args xs)
    (hp : ∀ x ∈ xs, PlainText x) : ∃ t, expand gen args = some t ∧ JText t (.arr (xs.map .str)) := by
  have hall : expandAll gen args = some xs := by
    clear hp
    induction hx with
    | nil => rfl
    | cons h _ ih => simp [expandAll, h, ih]
  refine ⟨91 :: (joinQuoted xs ++ [93]), by simp [expand, hall], ?_⟩
  cases xs with
  | nil => exact JText.arrNil (w := []) fun c hc => by cases hc
  | cons x xs => exact .arr (joinQuoted_elems x xs hp)

/-- The random strings are always of this kind: upper-case letters and digits, or hexadecimal digits. -/
theorem C68_random (x : Bytes) (h : ∀ c ∈ x, (48 ≤ c.toNat ∧ c.toNat ≤ 57) ∨ (65 ≤ c.toNat ∧ c.toNat ≤ 90) ∨ (97 ≤ c.toNat ∧ c.toNat ≤ 102)) : PlainText x := by
  constructor <;> intro hc <;> have := h _ hc <;> simp at this

example : PlainText [48, 65, 90, 97] := C68_random _ (by decide)

/-- C68 is false for files: a quote in the contents ends the string early, and the parameters have one more element. -/
theorem C68_quote_false : ∃ (gen : UInt8 → Bytes → Option Bytes) (arg x t : Bytes), expandArg gen arg = some x ∧ expand gen [arg] = some t ∧
    JText t (.arr [.str [97], .str [98]]) ∧ ¬ JText t (.arr [.str x]) := by
  have h2 : JText (91 :: (joinQuoted [[97], [98]] ++ [93])) (.arr [.str [97], .str [98]]) := by
    refine JText.arr (joinQuoted_elems [97] [[98]] ?_)
    intro y hy
    simp only [List.mem_cons, List.not_mem_nil, or_false] at hy
    rcases hy with rfl | rfl <;> constructor <;> decide
  refine ⟨fun _ _ => some [97, 34, 44, 34, 98], [102, 58], [97, 34, 44, 34, 98], _, rfl, rfl, h2, ?_⟩
  intro h
  have nw : WS [] := fun c hc => by cases hc
  have := (jtext_unique (w := []) (w' := []) (r := []) (r' := []) nw nw h h2 (by rintro ⟨z, hz⟩; cases hz) (by rintro ⟨z, hz⟩; cases hz) rfl).1
  simp at this

example : ∃ t, expand (fun _ r => some r) [[115, 58, 65], [104, 58, 49]] = some t ∧ JText t (.arr [.str [65], .str [49]]) := by
  refine C68_partial _ _ [[65], [49]] (.cons rfl (.cons rfl .nil)) ?_
  intro y hy
  simp only [List.mem_cons, List.not_mem_nil, or_false] at hy
  rcases hy with rfl | rfl <;> constructor <;> decide

/-- a script that succeeds -/
example : scriptStatus (fun _ _ r => some r) (fun _ _ _ _ _ => ⟨0, [97], []⟩) 3 [([108], [[111], [115, 58, 65]]), ([109], [[112]])] = 0 := by
  decide +kernel

/-- a difference in the third execution of the second case -/
example : scriptStatus (fun _ _ r => some r) (fun k _ _ _ i => ⟨if k = 1 ∧ i = 2 then 1 else 0, [97], []⟩) 3 [([108], [[111], [115, 58, 65]]), ([109], [[112]])] = 1 := by
  decide +kernel

end Eni.Props
