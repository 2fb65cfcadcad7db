import Verif.Proofs.PyInt
import Verif.Props.ConsensusReadf
/-!
# C134: the arguments in the description of a consensus test
-/
namespace Eni.Props
open Spec Base Json Consensus Proofs

variable (up hex : Nat → UInt8) (file : Bytes → Option Bytes)

/-- C134, exactly: which arguments are expanded, and to what. -/
theorem C134_exact (a x : Bytes) : expandArg (fns up hex file) a = some x ↔ ∃ k r, a = k :: r ∧
    ((k = 115 ∧ ∃ z, PyIntText r.tail z ∧ x = (List.range z.toNat).map up) ∨ (k = 104 ∧ ∃ z, PyIntText r.tail z ∧ x = (List.range z.toNat).map hex) ∨
      (k = 102 ∧ ∃ b, file r.tail = some b ∧ readf b = some x)) := by
  have text : ∀ (ch : Nat → UInt8) (t : Bytes), randText ch t = some x ↔ ∃ z, PyIntText t z ∧ x = (List.range z.toNat).map ch := by
    intro ch t
    unfold randText
    rw [Option.map_eq_some_iff]
    exact ⟨fun ⟨z, h1, h2⟩ => ⟨z, (pyInt_iff t z).mp h1, h2.symm⟩, fun ⟨z, h1, h2⟩ => ⟨z, (pyInt_iff t z).mpr h1, h2.symm⟩⟩
  cases a with
  | nil => simp [expandArg]
  | cons k r =>
    have e : (∃ k' r', k :: r = k' :: r' ∧ ((k' = 115 ∧ ∃ z, PyIntText r'.tail z ∧ x = (List.range z.toNat).map up) ∨
        (k' = 104 ∧ ∃ z, PyIntText r'.tail z ∧ x = (List.range z.toNat).map hex) ∨ (k' = 102 ∧ ∃ b, file r'.tail = some b ∧ readf b = some x))) ↔
        ((k = 115 ∧ ∃ z, PyIntText r.tail z ∧ x = (List.range z.toNat).map up) ∨ (k = 104 ∧ ∃ z, PyIntText r.tail z ∧ x = (List.range z.toNat).map hex) ∨
        (k = 102 ∧ ∃ b, file r.tail = some b ∧ readf b = some x)) := by
      constructor
      · rintro ⟨k', r', he, h⟩
        cases he
        exact h
      · exact fun h => ⟨k, r, rfl, h⟩
    rw [e]
    by_cases h1 : k = 115
    · subst h1
      simp [expandArg, fns, text]
    · by_cases h2 : k = 104
      · subst h2
        simp [expandArg, fns, text]
      · by_cases h3 : k = 102
        · subst h3
          simp [expandArg, fns, Option.bind_eq_some_iff]
        · simp [expandArg, h1, h2, h3]

/-- C134, the documented forms: `s:n` and `h:n` give texts of length n whose characters are the random choices. -/
theorem C134_documented (b : Bytes) (n : Nat) (hb : PyDigits b n) : ∃ x y, expandArg (fns up hex file) (115 :: 58 :: b) = some x ∧
    expandArg (fns up hex file) (104 :: 58 :: b) = some y ∧ x.length = n ∧ y.length = n ∧
    (∀ i < n, x[i]? = some (up i)) ∧ (∀ i < n, y[i]? = some (hex i)) := by
  have ht : PyIntText b n := ⟨[], b, [], n, by simp [PySpace], by simp [PySpace], hb, .inl ⟨by simp, rfl⟩⟩
  refine ⟨(List.range n).map up, (List.range n).map hex, (C134_exact up hex file _ _).mpr ⟨_, _, rfl, .inl ⟨rfl, n, ht, by simp⟩⟩,
    (C134_exact up hex file _ _).mpr ⟨_, _, rfl, .inr (.inl ⟨rfl, n, ht, by simp⟩)⟩, by simp, by simp, ?_, ?_⟩ <;>
  · intro i hi
    simp [hi]

/-- C134, the part that holds of malformed arguments: one that starts with no known letter, and a length that is no integer, make the script fail, whatever the
other cases are. The project's test malformed.json is such a case. -/
theorem C134_reported_partial (gen : Nat → UInt8 → Bytes → Option Bytes) (exec : Nat → Bytes → Bytes → Bytes → Nat → Proc) (n : Nat)
    (hgen : ∀ k, ∃ u h f, gen k = fns u h f) (cases : List (Bytes × List Bytes)) (lib op : Bytes) (args : List Bytes) (hc : (lib, op :: args) ∈ cases)
    (a : Bytes) (ha : a ∈ args)
    (hbad : ∀ k r, a = k :: r → (k ≠ 115 ∧ k ≠ 104 ∧ k ≠ 102) ∨ (k ≠ 102 ∧ ∀ z, ¬ PyIntText r.tail z)) : scriptStatus gen exec n cases = 1 := by
  have hne : scriptStatus gen exec n cases ≠ 0 := by
    intro h
    obtain ⟨-, hall⟩ := (C67_script gen exec n cases).mp h
    obtain ⟨k, hk⟩ := List.getElem?_of_mem hc
    obtain ⟨op', args', params, he, -, hx, -⟩ := hall k _ hk
    cases he
    obtain ⟨u, hh, f, hg⟩ := hgen k
    rw [hg] at hx
    have hall : ∀ (l : List Bytes) xs, expandAll (fns u hh f) l = some xs → ∀ b ∈ l, ∃ x, expandArg (fns u hh f) b = some x := by
      intro l
      induction l with
      | nil => intro _ _ b hb; cases hb
      | cons c l ih =>
        intro xs h b hb
        simp only [expandAll, Option.bind_eq_bind, Option.bind_eq_some_iff] at h
        obtain ⟨x, hx, ys, hy, -⟩ := h
        rcases List.mem_cons.mp hb with rfl | hb
        · exact ⟨x, hx⟩
        · exact ih ys hy b hb
    simp only [expand, Option.bind_eq_bind, Option.bind_eq_some_iff] at hx
    obtain ⟨xs, hxs, -⟩ := hx
    obtain ⟨x, hx⟩ := hall _ _ hxs a ha
    obtain ⟨k, r, rfl, h⟩ := (C134_exact u hh f a x).mp hx
    rcases hbad k r rfl with ⟨h1, h2, h3⟩ | ⟨h1, h2⟩
    · rcases h with ⟨h, -⟩ | ⟨h, -⟩ | ⟨h, -⟩
      · exact h1 h
      · exact h2 h
      · exact h3 h
    · rcases h with ⟨-, z, hz, -⟩ | ⟨-, z, hz, -⟩ | ⟨h, -⟩
      · exact h2 z hz
      · exact h2 z hz
      · exact h1 h
  have h01 : scriptStatus gen exec n cases = 0 ∨ scriptStatus gen exec n cases = 1 := by
    unfold scriptStatus
    split
    · exact .inl rfl
    · exact .inr rfl
  exact h01.resolve_left hne

/-- C134 is false of the code: nobody looks at the second character. Without the colon, the first digit of the length is lost: `s32` stands for two characters. -/
theorem C134_colon_false (c : UInt8) (k : UInt8) (r : Bytes) : expandArg (fns up hex file) (k :: c :: r) = expandArg (fns up hex file) (k :: 58 :: r) ∧
    expandArg (fns up hex file) (ascii "s32") = some [up 0, up 1] := by
  refine ⟨by simp [expandArg], ?_⟩
  have hd : PyDigits [50] 2 := .one ⟨by decide, by decide⟩
  have e : ascii "s32" = 115 :: 51 :: [50] := by decide +kernel
  rw [e]
  exact (C134_exact up hex file _ _).mpr ⟨_, _, rfl, .inl ⟨rfl, 2, ⟨[], [50], [], 2, by simp [PySpace], by simp [PySpace], hd, .inl ⟨rfl, rfl⟩⟩, rfl⟩⟩

/-- C134 is false of the code: a negative length is not an error, the text is empty. -/
theorem C134_negative_false (b : Bytes) (n : Nat) (hb : PyDigits b n) : expandArg (fns up hex file) (115 :: 58 :: 45 :: b) = some [] ∧
    expandArg (fns up hex file) (104 :: 58 :: 45 :: b) = some [] := by
  have ht : PyIntText (45 :: b) (-n) := ⟨[], b, [], n, by simp [PySpace], by simp [PySpace], hb, .inr (.inr ⟨by simp, rfl⟩)⟩
  exact ⟨(C134_exact up hex file _ _).mpr ⟨_, _, rfl, .inl ⟨rfl, _, ht, by simp⟩⟩, (C134_exact up hex file _ _).mpr ⟨_, _, rfl, .inr (.inl ⟨rfl, _, ht, by simp⟩)⟩⟩

/-- … and a script with both mistakes ends with status 0. -/
example : scriptStatus (fun _ => fns (fun _ => 65) (fun _ => 48) fun _ => none) (fun _ _ _ _ _ => ⟨0, [97], []⟩) 3
    [([108], [ascii "reverse", ascii "s32"]), ([108], [ascii "scrypt", ascii "h:-160"])] = 0 := by decide +kernel

/-- malformed.json.in: `Hello World!` starts with H. -/
example (exec : Nat → Bytes → Bytes → Bytes → Nat → Proc) (n : Nat) (lib : Bytes) :
    scriptStatus (fun _ => fns up hex file) exec n [(lib, [ascii "reverse", ascii "Hello World!"])] = 1 :=
  C134_reported_partial _ exec n (fun _ => ⟨up, hex, file, rfl⟩) _ lib (ascii "reverse") [ascii "Hello World!"] List.mem_cons_self _ List.mem_cons_self (by
    intro k r h
    have e : ascii "Hello World!" = 72 :: ascii "ello World!" := by decide +kernel
    rw [e] at h
    cases h
    exact .inl (by decide))
example := C134_documented up hex file [49, 95, 48] 10 (PyDigits.under (b := [49]) (n := 1) (c := 48) (v := 0) (.one ⟨by decide, by decide⟩) ⟨by decide, by decide⟩)
example := C134_negative_false up hex file [53] 5 (.one ⟨by decide, by decide⟩)
example : pyInt (ascii " 1_60\n") = some 160 ∧ pyInt (ascii "1__6") = none ∧ pyInt (ascii "16_") = none ∧ pyInt (ascii "+7") = some 7 ∧ pyInt (ascii "- 7") = none := by
  decide +kernel

end Eni.Props
