import Verif.Proofs.PrintStream
/-! C122: printing to a stream in any state. -/
namespace Eni.Props
open Ostream Spec

/-- C122, the part that holds: a good stream that writes decimal numbers without plus sign and has no width set; whatever was written before. -/
theorem C122_plain_partial (st : Stream) (hg : st.good = true) (hb : st.base = .dec) (hp : st.showpos = false) (hw : st.width = 0) (v : Value) :
    AppendsText st v := by
  unfold AppendsText printTo
  rw [emit_plain _ _ hg hw fun o _ => outText_plain hb hp o, items_text]

/-- C122, values without integers: the base and the signs do not matter. -/
theorem C122_text_partial (st : Stream) (hg : st.good = true) (hw : st.width = 0) {v : Value} (hv : NoNumber v) : AppendsText st v := by
  unfold AppendsText printTo
  rw [emit_plain _ _ hg hw fun o ho => outText_isText (noNumber_isText hv o ho), items_text]

/-- C122 is false of the code: a width that was set applies to the first piece of the text only, a quote or bracket. -/
theorem C122_width_false (st : Stream) (hg : st.good = true) (hb : st.base = .dec) (hp : st.showpos = false) (v : Value) :
    (printTo st v).1.out = st.out ++ filled st.left st.width st.fill v ∧ (printTo st v).2 = true ∧
      (∀ n, firstPiece v = some n → n < st.width → ¬ AppendsText st v) := by
  cases hf : firstPiece v with
  | none =>
    have hv : v = .undef := by cases v <;> first | rfl | cases hf
    subst hv
    refine ⟨?_, ?_, fun n h => by cases h⟩
    · simp [printTo, items, emit, filled, hf]
    · simp [printTo, items, emit]
  | some n =>
    obtain ⟨o, os, e, hl⟩ := firstPiece_items hf
    have ht := items_text v
    rw [e, List.flatMap_cons] at ht
    have hput : put st o = some { st with out := st.out ++ pad st (plain o), width := 0 } := by
      unfold put
      rw [outText_plain hb hp]
      simp only [Option.bind_eq_bind, Option.bind_some, hg, if_true]
    have hpr : printTo st v = ({ st with out := st.out ++ pad st (plain o) ++ os.flatMap plain, width := 0 }, true) := by
      unfold printTo
      rw [e, emit, hput]
      simp only
      exact emit_plain os { st with out := st.out ++ pad st (plain o), width := 0 } hg rfl fun p _ => outText_plain hb hp p
    have htake : (Value.print v).take n = plain o := by rw [← ht, ← hl, List.take_left']; rfl
    have hdrop : (Value.print v).drop n = os.flatMap plain := by rw [← ht, ← hl, List.drop_left']; rfl
    have hfill : pad st (plain o) ++ os.flatMap plain = filled st.left st.width st.fill v := by
      unfold filled pad
      rw [hf]
      simp only
      cases st.left with
      | true => simp only [if_true]; rw [htake, hdrop, hl]
      | false => simp only [Bool.false_eq_true, if_false]; rw [List.append_assoc, ht, hl]
    refine ⟨by rw [hpr, ← hfill, List.append_assoc], by rw [hpr], ?_⟩
    intro m hm hlt h
    cases hm
    unfold AppendsText at h
    rw [hpr] at h
    have h1 := congrArg (fun p => p.1.out.length) h
    simp only [List.length_append] at h1
    have hpad : (pad st (plain o)).length = st.width := by
      unfold pad
      cases st.left <;> simp <;> omega
    rw [← ht, List.length_append, hpad, hl] at h1
    omega

theorem decVal_snoc (l : Bytes) (c : UInt8) : decVal (l ++ [c]) = decVal l * 10 + (c.toNat - 48) := by
  unfold decVal; rw [List.foldl_append]; rfl

theorem digit_dec {up : Bool} {d : Nat} (h : d < 16) (hd : Digit (digit up d)) : d < 10 ∧ (digit up d).toNat - 48 = d := by
  unfold Digit at hd
  have key : ∀ (u : Bool) (e : Fin 16), 48 ≤ (digit u e).toNat ∧ (digit u e).toNat ≤ 57 → (e : Nat) < 10 ∧ (digit u e).toNat - 48 = e := by decide
  exact key up ⟨d, h⟩ hd

theorem radText_hex (up : Bool) (n : Nat) : (∀ c ∈ radText .hex up n, Digit c) →
    decVal (radText .hex up n) ≤ n ∧ (10 ≤ n → decVal (radText .hex up n) < n) := by
  induction n using Nat.strongRecOn with
  | ind n ih =>
    intro hd
    rw [radText] at hd ⊢
    by_cases h : n < Base.hex.radix
    · rw [if_pos h] at hd ⊢
      have := digit_dec h (hd _ (List.mem_cons_self ..))
      have e : decVal [digit up n] = n := by
        have := decVal_snoc [] (digit up n)
        simp only [List.nil_append] at this
        rw [this]; simp [decVal]; omega
      rw [e]; omega
    · rw [if_neg h] at hd ⊢
      have h16 : ¬ n < 16 := h
      have hr : Base.hex.radix = 16 := rfl
      rw [hr] at hd ⊢
      have i := ih (n / 16) (by omega) fun c hc => hd c (List.mem_append_left _ hc)
      have := digit_dec (d := n % 16) (by omega) (hd _ (List.mem_append_right _ (List.mem_cons_self ..)))
      rw [decVal_snoc, this.2]
      omega

theorem radText_oct (up : Bool) (n : Nat) : n ≤ decVal (radText .oct up n) ∧ (8 ≤ n → n < decVal (radText .oct up n)) := by
  induction n using Nat.strongRecOn with
  | ind n ih =>
    have key : ∀ (u : Bool) (e : Fin 8), (digit u e).toNat - 48 = e := by decide
    rw [radText]
    by_cases h : n < Base.oct.radix
    · rw [if_pos h]
      have h8 : n < 8 := h
      have e : decVal [digit up n] = n := by
        have := decVal_snoc [] (digit up n)
        simp only [List.nil_append] at this
        rw [this]; simp [decVal]; exact key up ⟨n, h8⟩
      rw [e]; omega
    · rw [if_neg h]
      have h8 : ¬ n < 8 := h
      have hr : Base.oct.radix = 8 := rfl
      rw [hr]
      have i := ih (n / 8) (by omega)
      have := key up ⟨n % 8, by omega⟩
      simp only at this
      rw [decVal_snoc, this]
      omega

theorem natDec_small (n : Nat) (h : n < 10) : Value.natDec n = [(48 + n).toUInt8] := by rw [Value.natDec, if_pos h]

/-- C122 is false of the code for integers, exactly: on a good stream without width, which integers keep their text. -/
theorem C122_number_false (st : Stream) (hg : st.good = true) (hw : st.width = 0) (z : Int) :
    AppendsText st (.int z) ↔ match st.base with
      | .dec => ¬ (st.showpos = true ∧ 0 ≤ z)
      | .oct => st.showbase = false ∧ 0 ≤ z ∧ z < 8
      | .hex => st.showbase = false ∧ 0 ≤ z ∧ z < 10 := by
  have h1 : AppendsText st (.int z) ↔ numText st z = some (Value.s256Print z) := by
    unfold AppendsText printTo
    rw [items, Value.print]
    cases hn : numText st z with
    | none => simp [emit, put, outText, hn]
    | some t =>
      have : emit st [.num z] = ({ st with out := st.out ++ t }, true) := by
        simp only [emit, put, outText, hn, Option.bind_eq_bind, Option.bind_some, hg, if_true, pad_zero hw]
        rw [← hw]
      rw [this]
      constructor
      · intro h
        have h2 := congrArg (fun p => p.1.out) h
        simp only at h2
        rw [List.append_cancel_left h2]
      · intro h; cases h; rfl
  rw [h1]
  have pos : ∀ n : Nat, Value.s256Print (n : Int) = Value.natDec n := by
    intro n
    unfold Value.s256Print
    rw [if_neg (by omega)]
    simp
  unfold numText
  cases hb : st.base with
  | dec =>
    simp only
    by_cases h : st.showpos = true ∧ 0 ≤ z
    · rw [if_pos h]
      simp only [h, and_self, not_true_eq_false, iff_false, Option.some.injEq]
      intro hx
      have := congrArg List.length hx
      simp at this
    · rw [if_neg h]; simp [h]
  | oct =>
    simp only
    by_cases hz : z < 0
    · rw [if_pos hz]
      constructor
      · intro h; cases h
      · intro h; omega
    · rw [if_neg hz]
      obtain ⟨n, rfl⟩ : ∃ n : Nat, z = n := ⟨z.toNat, by omega⟩
      rw [pos, Int.toNat_natCast, Option.some.injEq]
      constructor
      · intro h
        cases hs : st.showbase with
        | true =>
          rw [hs] at h
          simp only [if_true, List.cons_append, List.nil_append] at h
          obtain ⟨-, -, h3, -⟩ := Json.natDec_text n
          rw [← h] at h3
          have := h3 rfl
          rw [radText] at this
          split at this <;> simp at this
        | false =>
          rw [hs] at h
          simp only [Bool.false_eq_true, if_false, List.nil_append] at h
          have i := radText_oct st.upper n
          rw [h, (Json.natDec_spec n).2.1] at i
          refine ⟨rfl, by omega, by omega⟩
      · rintro ⟨hs, -, h8⟩
        have h8' : n < 8 := by omega
        rw [hs, natDec_small n (by omega), radText, if_pos (show n < Base.oct.radix from h8')]
        simp [digit, show n < 10 by omega]
  | hex =>
    simp only
    by_cases hz : z < 0
    · rw [if_pos hz]
      constructor
      · intro h; cases h
      · intro h; omega
    · rw [if_neg hz]
      obtain ⟨n, rfl⟩ : ∃ n : Nat, z = n := ⟨z.toNat, by omega⟩
      rw [pos, Int.toNat_natCast, Option.some.injEq]
      constructor
      · intro h
        cases hs : st.showbase with
        | true =>
          rw [hs] at h
          simp only [if_true, List.cons_append, List.nil_append] at h
          obtain ⟨-, -, h3, -⟩ := Json.natDec_text n
          rw [← h] at h3
          have := h3 rfl
          simp at this
        | false =>
          rw [hs] at h
          simp only [Bool.false_eq_true, if_false, List.nil_append] at h
          have i := radText_hex st.upper n (by rw [h]; exact (Json.natDec_spec n).1)
          rw [h, (Json.natDec_spec n).2.1] at i
          refine ⟨rfl, by omega, by omega⟩
      · rintro ⟨hs, -, h10⟩
        have h10' : n < 10 := by omega
        have h16 : n < 16 := by omega
        rw [hs, natDec_small n h10', radText, if_pos (show n < Base.hex.radix from h16)]
        simp [digit, h10']

theorem digit_val (up : Bool) : ∀ d : Fin 16, Hex.digitVal (digit up d.val) = some d.val ∧ (10 ≤ d.val → (digit up d.val ≤ 70 ↔ up = true)) := by
  cases up <;> decide

theorem radText_digits (b : Base) (up : Bool) (n : Nat) : Digits b.radix up (radText b up n) n := by
  have hb : b.radix ≤ 16 ∧ 2 ≤ b.radix := by cases b <;> decide
  induction n using Nat.strongRecOn with
  | _ n ih =>
    rw [radText]
    by_cases h : n < b.radix
    · rw [if_pos h]
      obtain ⟨h1, h2⟩ := digit_val up ⟨n, by omega⟩
      exact .one h1 h h2
    · rw [if_neg h]
      have hm : n % b.radix < b.radix := Nat.mod_lt _ (by omega)
      obtain ⟨h1, h2⟩ := digit_val up ⟨n % b.radix, by omega⟩
      have hd := Digits.snoc (ih (n / b.radix) (Nat.div_lt_self (by omega) (by omega))) (Nat.div_pos (by omega) (by omega)) h1 hm h2
      have e : n / b.radix * b.radix + n % b.radix = n := by rw [Nat.mul_comm]; exact Nat.div_add_mod n b.radix
      rwa [e] at hd

/-- C122, what is written instead: a number from zero on in base 8 or 16 is written with the digits of that base, behind `0`, `0x` or `0X` if the stream shows the base. -/
theorem C122_radix (st : Stream) (hg : st.good = true) (hw : st.width = 0) (hb : st.base ≠ .dec) (n : Nat) :
    ∃ t, Digits st.base.radix st.upper t n ∧
      printTo st (.int n) = ({ st with out := st.out ++ ((match st.showbase, st.base, st.upper with
        | true, .oct, _ => [48] | true, .hex, false => [48, 120] | true, .hex, true => [48, 88] | _, _, _ => []) ++ t) }, true) := by
  refine ⟨_, radText_digits st.base st.upper n, ?_⟩
  obtain ⟨out, good, base, showbase, showpos, upper, width, fill, left⟩ := st
  simp only at hg hw hb
  subst hg hw
  have hz : ¬ ((n : Int) < 0) := by omega
  cases base <;> cases showbase <;> cases upper <;> cases left <;> first | exact absurd rfl hb | simp [printTo, items, emit, put, outText, numText, pad, hz]

/-- On a stream in a bad state nothing is written. -/
theorem C122_bad (st : Stream) (hg : st.good = false) (v : Value) : (printTo st v).1 = st := by
  unfold printTo
  induction items v with
  | nil => rfl
  | cons o os ih =>
    rw [emit]
    cases h : outText st o with
    | none => simp [put, h]
    | some t => simp [put, h, hg, ih]

/-- The text that `start()` returns is printed to a new stream. -/
theorem C122_fresh (v : Value) : (printTo Stream.fresh v).1.out = Value.print v ∧ (printTo Stream.fresh v).2 = true := by
  have h := C122_plain_partial Stream.fresh rfl rfl rfl rfl v
  unfold AppendsText at h
  rw [h]
  exact ⟨by simp [Stream.fresh], rfl⟩

/-- A negative number on a stream that writes hexadecimal numbers ends with an exception after part of the text was written. -/
example : printTo { Stream.fresh with base := .hex } (.arr [.bool true, .int (-1)]) =
    ({ Stream.fresh with base := .hex, out := [91, 116, 114, 117, 101, 44] }, false) := by
  unfold printTo
  rw [items_arr]
  simp [items, elemItems, emit, put, outText, numText, pad, Stream.fresh]

/-- 255 on a new stream after `std::hex`. -/
example : (printTo { Stream.fresh with base := .hex } (.int 255)).1.out = [102, 102] := by
  simp [printTo, items, emit, put, outText, numText, pad, Stream.fresh, radText, Base.radix, digit]
example := C122_radix { Stream.fresh with base := .hex } rfl rfl (by decide) 255

/-- The hypotheses are met: 255 in base 16, `["a"]` with width 4. -/
example : ¬ AppendsText { Stream.fresh with base := .hex } (.int 255) := by
  rw [C122_number_false _ rfl rfl]; simp
example : (printTo { Stream.fresh with width := 4 } (.str [97])).1.out = [32, 32, 32, 34, 97, 34] := by
  rw [(C122_width_false { Stream.fresh with width := 4 } rfl rfl rfl (.str [97])).1]
  simp [Stream.fresh, filled, firstPiece, Value.print, Value.printStr, Value.printChar]
example : NoNumber (.arr [.str [97], .bool true]) := .arr (by
  intro v hv
  simp at hv
  rcases hv with rfl | rfl
  · exact .str
  · exact .bool)

end Eni.Props
