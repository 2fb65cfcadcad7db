import Verif.Model.ConsensusGen
import Verif.Spec.PyInt
/-! `pyInt` accepts the texts of Spec/PyInt. -/
namespace Eni.Proofs
open Spec Consensus

theorem isDig_iff (c : UInt8) : isDig c = true ↔ DigitIs c (c.toNat - 48) := by
  simp only [isDig, Bool.and_eq_true, decide_eq_true_eq, UInt8.le_iff_toNat_le, DigitIs]
  constructor
  · rintro ⟨h1, h2⟩
    have h1 : 48 ≤ c.toNat := h1
    have h2 : c.toNat ≤ 57 := h2
    omega
  · rintro ⟨h1, h2⟩
    exact ⟨show 48 ≤ c.toNat by omega, show c.toNat ≤ 57 by omega⟩

theorem digitIs_dig {c : UInt8} {v : Nat} (h : DigitIs c v) : isDig c = true ∧ c.toNat - 48 = v := by
  have hv : c.toNat - 48 = v := by have := h.2; omega
  exact ⟨(isDig_iff c).mpr (hv ▸ h), hv⟩

theorem isSp_iff (c : UInt8) : isSp c = true ↔ c ∈ [(32 : UInt8), 9, 10, 11, 12, 13] := by
  have : ∀ n : Fin 256, isSp (UInt8.ofNat n) = true ↔ UInt8.ofNat n ∈ [(32 : UInt8), 9, 10, 11, 12, 13] := by decide +kernel
  have h := this ⟨c.toNat, c.toNat_lt⟩
  simpa using h

/-- The digits behind those that have been read. -/
inductive Tail : Nat → Bytes → Nat → Prop
  | nil {a} : Tail a [] a
  | digit {a c v t n} : DigitIs c v → Tail (10 * a + v) t n → Tail a (c :: t) n
  | under {a c v t n} : DigitIs c v → Tail (10 * a + v) t n → Tail a (95 :: c :: t) n

theorem Tail.snoc {a t n c v} (h : Tail a t n) (hc : DigitIs c v) : Tail a (t ++ [c]) (10 * n + v) ∧ Tail a (t ++ [95, c]) (10 * n + v) := by
  induction h with
  | nil => exact ⟨.digit hc .nil, .under hc .nil⟩
  | digit hd _ ih => exact ⟨.digit hd ih.1, .digit hd ih.2⟩
  | under hd _ ih => exact ⟨.under hd ih.1, .under hd ih.2⟩

theorem tail_of_digits {b n} (h : PyDigits b n) : ∃ c v t, b = c :: t ∧ DigitIs c v ∧ Tail v t n := by
  induction h with
  | one hc => exact ⟨_, _, [], rfl, hc, .nil⟩
  | digit _ hc ih =>
    obtain ⟨d, v, t, rfl, hd, ht⟩ := ih
    exact ⟨d, v, _, rfl, hd, (ht.snoc hc).1⟩
  | under _ hc ih =>
    obtain ⟨d, v, t, rfl, hd, ht⟩ := ih
    exact ⟨d, v, _, rfl, hd, (ht.snoc hc).2⟩

theorem digits_of_tail {a t n} (h : Tail a t n) : ∀ {b}, PyDigits b a → PyDigits (b ++ t) n := by
  induction h with
  | nil => intro b hb; simpa using hb
  | digit hc _ ih =>
    intro b hb
    have := ih (hb.digit hc)
    simpa using this
  | under hc _ ih =>
    intro b hb
    have := ih (hb.under hc)
    simpa using this

theorem not_dig_95 : isDig 95 = false := by decide

theorem intLoop_complete {a t n} (h : Tail a t n) (r : Bytes) (hr : ∀ c, r.head? = some c → isDig c = false ∧ c ≠ 95) : intLoop a (t ++ r) = some (n, r) := by
  induction h with
  | nil =>
    cases r with
    | nil => rfl
    | cons c r =>
      obtain ⟨h1, h2⟩ := hr c rfl
      rw [List.nil_append, intLoop.eq_def]
      simp [h1, h2]
  | digit hc _ ih =>
    obtain ⟨h1, h2⟩ := digitIs_dig hc
    rw [List.cons_append, intLoop.eq_def]
    simp only [h1, if_true, h2]
    exact ih
  | under hc _ ih =>
    obtain ⟨h1, h2⟩ := digitIs_dig hc
    rw [List.cons_append, List.cons_append, intLoop.eq_def]
    simp only [h1, if_true, h2, not_dig_95, Bool.false_eq_true, if_false]
    exact ih

theorem intLoop_sound (a : Nat) (l : Bytes) : ∀ n r, intLoop a l = some (n, r) → ∃ t, l = t ++ r ∧ Tail a t n := by
  induction a, l using intLoop.induct with
  | case1 a =>
    intro n r h
    simp only [intLoop, Option.some.injEq, Prod.mk.injEq] at h
    obtain ⟨rfl, rfl⟩ := h
    exact ⟨[], rfl, .nil⟩
  | case2 a c l hc ih =>
    intro n r h
    rw [intLoop.eq_def] at h
    simp only [hc, if_true] at h
    obtain ⟨t, rfl, ht⟩ := ih n r h
    exact ⟨c :: t, rfl, .digit ((isDig_iff c).mp hc) ht⟩
  | case3 a hc =>
    intro n r h
    rw [intLoop.eq_def] at h
    simp [not_dig_95] at h
  | case4 a d s hd hc ih =>
    intro n r h
    rw [intLoop.eq_def] at h
    simp only [not_dig_95, Bool.false_eq_true, if_false, if_true, hd] at h
    obtain ⟨t, rfl, ht⟩ := ih n r h
    exact ⟨95 :: d :: t, rfl, .under ((isDig_iff d).mp hd) ht⟩
  | case5 a d s hd hc =>
    intro n r h
    rw [intLoop.eq_def] at h
    simp [not_dig_95, hd] at h
  | case6 a c l hc hu =>
    intro n r h
    rw [intLoop.eq_def] at h
    simp only [hc, hu, if_false, Option.some.injEq, Prod.mk.injEq, Bool.false_eq_true] at h
    obtain ⟨rfl, rfl⟩ := h
    exact ⟨[], rfl, .nil⟩

theorem intDigits_iff (l : Bytes) (n : Nat) : intDigits l = some n ↔ ∃ b w, l = b ++ w ∧ PyDigits b n ∧ PySpace w := by
  constructor
  · intro h
    cases l with
    | nil => cases h
    | cons c r =>
      simp only [intDigits] at h
      split at h
      · rename_i hc
        split at h
        · rename_i m rest hl
          split at h
          · rename_i hall
            cases h
            obtain ⟨t, rfl, ht⟩ := intLoop_sound _ _ _ _ hl
            refine ⟨c :: t, rest, rfl, ?_, ?_⟩
            · have := digits_of_tail ht (.one ((isDig_iff c).mp hc))
              simpa using this
            · intro x hx
              exact (isSp_iff x).mp (List.all_eq_true.mp hall x hx)
          · cases h
        · cases h
      · cases h
  · rintro ⟨b, w, rfl, hb, hw⟩
    obtain ⟨c, v, t, rfl, hc, ht⟩ := tail_of_digits hb
    obtain ⟨h1, h2⟩ := digitIs_dig hc
    have hl := intLoop_complete ht w (by
      intro x hx
      have hm := hw x (List.mem_of_mem_head? hx)
      have : ∀ y ∈ [(32 : UInt8), 9, 10, 11, 12, 13], isDig y = false ∧ y ≠ 95 := by decide
      exact this x hm)
    have hall : w.all isSp = true := List.all_eq_true.mpr fun x hx => (isSp_iff x).mpr (hw x hx)
    simp only [List.cons_append, intDigits, h1, if_true, h2, hl, hall]

theorem digits_head {b n} (h : PyDigits b n) : ∃ c t, b = c :: t ∧ isDig c = true := by
  obtain ⟨c, v, t, rfl, hc, -⟩ := tail_of_digits h
  exact ⟨c, t, rfl, (digitIs_dig hc).1⟩

theorem dropWhile_space {w r : Bytes} {c : UInt8} (hw : PySpace w) (hc : isSp c = false) : (w ++ c :: r).dropWhile isSp = c :: r := by
  induction w with
  | nil => simp [hc]
  | cons x w ih =>
    have hx := (isSp_iff x).mpr (hw x List.mem_cons_self)
    rw [List.cons_append, List.dropWhile_cons, if_pos hx]
    exact ih fun y hy => hw y (List.mem_cons_of_mem _ hy)

theorem dig_facts (c : UInt8) (h : isDig c = true) : isSp c = false ∧ c ≠ 45 ∧ c ≠ 43 := by
  have : ∀ n : Fin 256, isDig (UInt8.ofNat n) = true → isSp (UInt8.ofNat n) = false ∧ UInt8.ofNat n ≠ 45 ∧ UInt8.ofNat n ≠ 43 := by decide +kernel
  have h2 := this ⟨c.toNat, c.toNat_lt⟩
  simp only [UInt8.ofNat_toNat] at h2
  exact h2 h

theorem pyInt_iff (t : Bytes) (z : Int) : pyInt t = some z ↔ PyIntText t z := by
  constructor
  · intro h
    have hsplit : t = t.takeWhile isSp ++ t.dropWhile isSp := (List.takeWhile_append_dropWhile).symm
    have hw : PySpace (t.takeWhile isSp) := fun c hc => (isSp_iff c).mp (List.all_eq_true.mp List.all_takeWhile c hc)
    generalize t.takeWhile isSp = w₀ at hsplit hw
    unfold pyInt at h
    cases hd : t.dropWhile isSp with
    | nil => rw [hd] at h; cases h
    | cons c r =>
      rw [hd] at h hsplit
      simp only at h
      by_cases h1 : c = 45
      · rw [if_pos h1] at h
        obtain ⟨n, hn, rfl⟩ := Option.map_eq_some_iff.mp h
        obtain ⟨b, w, rfl, hb, hw2⟩ := (intDigits_iff _ _).mp hn
        exact ⟨_, b, w, n, hw, hw2, hb, .inr (.inr ⟨by rw [hsplit, h1]; simp, rfl⟩)⟩
      · rw [if_neg h1] at h
        by_cases h2 : c = 43
        · rw [if_pos h2] at h
          obtain ⟨n, hn, rfl⟩ := Option.map_eq_some_iff.mp h
          obtain ⟨b, w, rfl, hb, hw2⟩ := (intDigits_iff _ _).mp hn
          exact ⟨_, b, w, n, hw, hw2, hb, .inr (.inl ⟨by rw [hsplit, h2]; simp, rfl⟩)⟩
        · rw [if_neg h2] at h
          obtain ⟨n, hn, rfl⟩ := Option.map_eq_some_iff.mp h
          obtain ⟨b, w, hbw, hb, hw2⟩ := (intDigits_iff _ _).mp hn
          exact ⟨_, b, w, n, hw, hw2, hb, .inl ⟨by rw [hsplit, hbw]; simp, rfl⟩⟩
  · rintro ⟨w₁, b, w₂, n, h1, h2, hb, h⟩
    have hi : intDigits (b ++ w₂) = some n := (intDigits_iff _ _).mpr ⟨b, w₂, rfl, hb, h2⟩
    obtain ⟨c, s, rfl, hc⟩ := digits_head hb
    obtain ⟨f1, f2, f3⟩ := dig_facts c hc
    rcases h with ⟨rfl, rfl⟩ | ⟨rfl, rfl⟩ | ⟨rfl, rfl⟩
    · have e : w₁ ++ c :: s ++ w₂ = w₁ ++ c :: (s ++ w₂) := by simp
      unfold pyInt
      rw [e, dropWhile_space h1 f1]
      simp only [f2, f3, if_false]
      rw [← List.cons_append, hi]
      rfl
    · have e : w₁ ++ [43] ++ c :: s ++ w₂ = w₁ ++ 43 :: (c :: s ++ w₂) := by simp
      unfold pyInt
      rw [e, dropWhile_space h1 (by decide)]
      rw [List.cons_append] at hi
      simp [hi]
    · have e : w₁ ++ [45] ++ c :: s ++ w₂ = w₁ ++ 45 :: (c :: s ++ w₂) := by simp
      unfold pyInt
      rw [e, dropWhile_space h1 (by decide)]
      rw [List.cons_append] at hi
      simp [hi]

end Eni.Proofs
