import Verif.Model.StringHasher
import Verif.Spec.Hasher
/-!
# Lemmas about the string hashers

Helper lemmas, no property statements.
-/
namespace Eni.Hasher
open Spec

theorem high_mask {i : Nat} (h : 28 ≤ i) (h2 : i < 32) : Nat.testBit 0xF0000000 i = true := by
  have : i = 28 ∨ i = 29 ∨ i = 30 ∨ i = 31 := by omega
  rcases this with rfl | rfl | rfl | rfl <;> decide

theorem low_mask {i : Nat} (h : i < 28) : Nat.testBit 0xF0000000 i = false := by
  have : ∀ i : Fin 28, Nat.testBit 0xF0000000 i = false := by decide
  exact this ⟨i, h⟩

theorem lt28_of_bits {x : UInt32} (h : ∀ i, 28 ≤ i → i < 32 → x.toBitVec.getLsbD i = false) : x.toNat < 268435456 := by
  have : x.toNat < 2 ^ 28 := by
    apply Nat.lt_pow_two_of_testBit
    intro i hi
    rcases Nat.lt_or_ge i 32 with h2 | h2
    · exact h i hi h2
    · exact BitVec.getLsbD_of_ge x.toBitVec i h2
  simpa using this

theorem mask_bit (i : Nat) (h1 : 28 ≤ i) (h2 : i < 32) : (0xF0000000#32).getLsbD i = true := by
  rw [BitVec.getLsbD_ofNat]; simp [h2, high_mask h1 h2]

theorem shr_bit (x : UInt32) (i : Nat) : (x >>> 24).toBitVec.getLsbD i = x.toBitVec.getLsbD (24 + i) := by
  show (x.toBitVec >>> (24 % 32 : BitVec 32)).getLsbD i = _
  have : x.toBitVec >>> (24 % 32 : BitVec 32) = x.toBitVec >>> 24 := rfl
  rw [this, BitVec.getLsbD_ushiftRight]

theorem elfStep_lt (h : UInt32) (c : UInt8) : (elfStep h c).toNat < 268435456 := by
  apply lt28_of_bits
  intro i h1 h2
  unfold elfStep
  generalize (h <<< 4) + sx c = g
  dsimp only
  split
  · rw [UInt32.toBitVec_and, BitVec.getLsbD_and, UInt32.toBitVec_xor, BitVec.getLsbD_xor, shr_bit,
      BitVec.getLsbD_of_ge _ (24 + i) (by omega), UInt32.toBitVec_not, BitVec.getLsbD_not, UInt32.toBitVec_and,
      BitVec.getLsbD_and]
    have := mask_bit i h1 h2
    simp [h2, this]
  · rw [UInt32.toBitVec_and, BitVec.getLsbD_and, UInt32.toBitVec_not, BitVec.getLsbD_not, UInt32.toBitVec_and,
      BitVec.getLsbD_and]
    have := mask_bit i h1 h2
    simp [h2, this]

theorem pjwStep_lt (h : UInt32) (c : UInt8) : (pjwStep h c).toNat < 268435456 := by
  apply lt28_of_bits
  intro i h1 h2
  unfold pjwStep
  generalize (h <<< 4) + sx c = g
  dsimp only
  have hm := mask_bit i h1 h2
  split
  · rw [UInt32.toBitVec_and, BitVec.getLsbD_and, UInt32.toBitVec_not, BitVec.getLsbD_not]
    simp [h2, hm]
  · rename_i h3
    have h3 : g &&& 0xF0000000 = 0 := by simpa using h3
    have h4 : (g &&& 0xF0000000).toBitVec.getLsbD i = false := by rw [h3]; simp
    rw [UInt32.toBitVec_and, BitVec.getLsbD_and] at h4
    simpa [hm] using h4

theorem foldl_lt (f : UInt32 → UInt8 → UInt32) (n : Nat) (hf : ∀ h c, (f h c).toNat < n) (s : List UInt8) (a : UInt32)
    (ha : a.toNat < n) : (s.foldl f a).toNat < n := by
  induction s generalizing a with
  | nil => exact ha
  | cons c s ih => exact ih _ (hf a c)

/-! ES -/

/-- the bit of a character class -/
def cbit (c : UInt8) : UInt32 := match cls c with | some i => (1 : UInt32) <<< UInt32.ofNat i | none => 0

/-- all bits of a string -/
def bits (s : List UInt8) : UInt32 := s.foldr (fun c a => cbit c ||| a) 0

theorem esStep_eq (r d : UInt32) (c : UInt8) (hc : c.toNat < 128) :
    esStep (r, d) c = some (r ||| cbit c, d + (if c = 46 then 1 else 0)) := by
  have key : ∀ n, n < 128 → ∀ c : UInt8, c = UInt8.ofNat n →
      (c = 46 ∧ cls c = none) ∨ (c ≠ 46 ∧ ¬ 128 ≤ c ∧
      ((48 ≤ c ∧ c ≤ 57) ∧ cls c = some 27 ∨ ¬ (48 ≤ c ∧ c ≤ 57) ∧ (c = 95 ∧ cls c = some 26 ∨ c ≠ 95 ∧
        ((65 ≤ c ∧ c ≤ 90) ∧ cls c = some (c.toNat - 65) ∨ ¬ (65 ≤ c ∧ c ≤ 90) ∧
          ((97 ≤ c ∧ c ≤ 122) ∧ cls c = some (c.toNat - 97) ∨ ¬ (97 ≤ c ∧ c ≤ 122) ∧ cls c = none))))) := by
    intro n hn c hc
    subst hc
    revert n
    decide
  have hcc : c = UInt8.ofNat c.toNat := by simp
  unfold esStep cbit
  rcases key c.toNat hc c hcc with ⟨h1, h2⟩ | ⟨h1, h2, ⟨h3, h4⟩ | ⟨h3, ⟨h4, h5⟩ | ⟨h4, ⟨h5, h6⟩ | ⟨h5, ⟨h6, h7⟩ | ⟨h6, h7⟩⟩⟩⟩⟩
  · simp [h1, show cls 46 = none from by decide]
  · simp only [h1, h2, h3, h4, if_false]; simp
  · simp only [h4, show cls 95 = some 26 from by decide]; simp
  · simp only [h1, h2, h3, h4, h5, h6, if_false]; simp
  · simp only [h1, h2, h3, h4, h5, h6, h7, if_false]; simp
  · simp only [h1, h2, h3, h4, h5, h6, h7, if_false]; simp

theorem esLoop_eq (s : List UInt8) (hs : Ascii s) (r d : UInt32) :
    esLoop (r, d) s = some (r ||| bits s, d + UInt32.ofNat (dots s)) := by
  induction s generalizing r d with
  | nil => simp [esLoop, bits, dots]
  | cons c s ih =>
    have h1 := esStep_eq r d c (hs c List.mem_cons_self)
    have h2 := ih (fun x hx => hs x (List.mem_cons_of_mem _ hx)) (r ||| cbit c) (d + (if c = 46 then 1 else 0))
    rw [esLoop, h1]
    simp only
    rw [h2]
    simp only [bits, List.foldr_cons, dots, List.count_cons]
    rw [UInt32.or_assoc]
    congr 2
    by_cases hc : c = 46
    · subst hc
      simp
      rw [UInt32.add_comm (UInt32.ofNat _) 1, UInt32.add_assoc]
    · simp [hc]

theorem es_eq (s : List UInt8) (hs : Ascii s) : es s = .ok (bits s ||| (UInt32.ofNat (dots s) <<< 28)) := by
  unfold es
  rw [esLoop_eq s hs]
  simp

theorem cls_lt (c : UInt8) (i : Nat) (h : cls c = some i) : i < 28 := by
  unfold cls at h
  split at h
  · simp at h; omega
  · split at h
    · simp at h; omega
    · split at h
      · simp at h; omega
      · split at h
        · simp at h; omega
        · simp at h

theorem cbit_bit (c : UInt8) (i : Nat) : (cbit c).toNat.testBit i = decide (cls c = some i) := by
  unfold cbit
  cases h : cls c with
  | none => simp
  | some j =>
    have hj := cls_lt c j h
    have : ∀ j : Fin 28, ((1 : UInt32) <<< UInt32.ofNat j.val).toNat = 2 ^ j.val := by decide
    simp only
    rw [this ⟨j, hj⟩, Nat.testBit_two_pow]
    simp

theorem bits_bit (s : List UInt8) (i : Nat) : (bits s).toNat.testBit i = true ↔ ∃ c ∈ s, cls c = some i := by
  induction s with
  | nil => simp [bits]
  | cons c s ih =>
    simp only [bits, List.foldr_cons, UInt32.toNat_or, Nat.testBit_or, cbit_bit, Bool.or_eq_true, decide_eq_true_eq] at ih ⊢
    rw [ih]
    simp

theorem bits_lt (s : List UInt8) : (bits s).toNat < 2 ^ 28 := by
  apply Nat.lt_pow_two_of_testBit
  intro i hi
  rw [Bool.eq_false_iff]
  intro h
  obtain ⟨c, _, hc⟩ := (bits_bit s i).mp h
  have := cls_lt c i hc
  omega

/-- low and high part of an ES signature -/
theorem es_parts (s : List UInt8) : (bits s ||| (UInt32.ofNat (dots s) <<< 28)).toNat = dots s % 16 * 2 ^ 28 + (bits s).toNat := by
  have hb := bits_lt s
  rw [UInt32.toNat_or, UInt32.toNat_shiftLeft]
  have h1 : (UInt32.ofNat (dots s)).toNat <<< (UInt32.toNat 28 % 32) % 2 ^ 32 = dots s % 16 * 2 ^ 28 := by
    have : UInt32.toNat 28 % 32 = 28 := rfl
    rw [this, Nat.shiftLeft_eq, UInt32.toNat_ofNat']
    omega
  rw [h1, Nat.or_comm, Nat.mul_comm, ← Nat.two_pow_add_eq_or_of_lt hb]

theorem shl4_bit (x : UInt32) (i : Nat) : (x <<< 4).toNat.testBit i = (decide (i < 32) && (decide (4 ≤ i) && x.toNat.testBit (i - 4))) := by
  rw [UInt32.toNat_shiftLeft]
  have : UInt32.toNat 4 % 32 = 4 := rfl
  rw [this, Nat.testBit_mod_two_pow, Nat.testBit_shiftLeft]

theorem mayInclude_iff (r t : UInt32) :
    mayInclude r t = true ↔ (∀ i < 28, r.toNat.testBit i = true → t.toNat.testBit i = true) ∧ r.toNat / 2 ^ 28 ≤ t.toNat / 2 ^ 28 := by
  have hres : ((t <<< 4) ^^^ (r <<< 4)) &&& (r <<< 4) = 0 ↔ ∀ i < 28, r.toNat.testBit i = true → t.toNat.testBit i = true := by
    rw [← UInt32.toNat_inj]
    constructor
    · intro h i hi hr
      have h2 : ((((t <<< 4) ^^^ (r <<< 4)) &&& (r <<< 4)).toNat).testBit (i + 4) = false := by rw [h]; simp
      rw [UInt32.toNat_and, UInt32.toNat_xor, Nat.testBit_and, Nat.testBit_xor, shl4_bit, shl4_bit] at h2
      have e1 : decide (i + 4 < 32) = true := by simp; omega
      have e2 : decide (4 ≤ i + 4) = true := by simp
      rw [e1, e2, Nat.add_sub_cancel, hr] at h2
      simpa using h2
    · intro h
      apply Nat.eq_of_testBit_eq
      intro i
      rw [UInt32.toNat_and, UInt32.toNat_xor, Nat.testBit_and, Nat.testBit_xor, shl4_bit, shl4_bit]
      simp only [UInt32.toNat_zero, Nat.zero_testBit]
      rcases Nat.lt_or_ge i 32 with h1 | h1
      · rcases Nat.lt_or_ge i 4 with h2 | h2
        · have : decide (4 ≤ i) = false := by simp; omega
          simp [this]
        · have := h (i - 4) (by omega)
          cases hr : r.toNat.testBit (i - 4)
          · simp
          · simp [this hr]
      · have : decide (i < 32) = false := by simp; omega
        simp [this]
  have hsh : ∀ x : UInt32, (x >>> 28).toNat = x.toNat / 2 ^ 28 := by
    intro x
    rw [UInt32.toNat_shiftRight]
    have : UInt32.toNat 28 % 32 = 28 := rfl
    rw [this, Nat.shiftRight_eq_div_pow]
  unfold mayInclude
  dsimp only
  rw [← hres, ← hsh, ← hsh]
  by_cases h1 : ((t <<< 4) ^^^ (r <<< 4)) &&& (r <<< 4) = 0
  · rw [if_neg (by simpa using h1)]
    by_cases h2 : r >>> 28 > t >>> 28
    · rw [if_pos h2]
      have : ¬ (r >>> 28).toNat ≤ (t >>> 28).toNat := by
        have : (t >>> 28).toNat < (r >>> 28).toNat := UInt32.lt_iff_toNat_lt.mp h2
        omega
      exact ⟨fun h => by simp at h, fun h => absurd h.2 this⟩
    · rw [if_neg h2]
      have : (r >>> 28).toNat ≤ (t >>> 28).toNat := by
        have : ¬ (t >>> 28).toNat < (r >>> 28).toNat := fun h => h2 (UInt32.lt_iff_toNat_lt.mpr h)
        omega
      exact ⟨fun _ => ⟨h1, this⟩, fun _ => rfl⟩
  · rw [if_pos (by simpa using h1)]
    simp [h1]

theorem es_bit (s : List UInt8) {i : Nat} (hi : i < 28) :
    ((bits s ||| (UInt32.ofNat (dots s) <<< 28)).toNat).testBit i = (bits s).toNat.testBit i := by
  rw [es_parts, Nat.mul_comm, Nat.testBit_two_pow_mul_add _ (bits_lt s)]
  simp [hi]

theorem es_high (s : List UInt8) : (bits s ||| (UInt32.ofNat (dots s) <<< 28)).toNat / 2 ^ 28 = dots s % 16 := by
  rw [es_parts]
  have := bits_lt s
  omega

/-- the whole meaning of the ES signature -/
theorem es_mayInclude (rule text : List UInt8) (hr : Ascii rule) (ht : Ascii text) :
    ∃ r t, es rule = .ok r ∧ es text = .ok t ∧
      (mayInclude r t = true ↔ Covers rule text ∧ dots rule % 16 ≤ dots text % 16) := by
  refine ⟨_, _, es_eq rule hr, es_eq text ht, ?_⟩
  rw [mayInclude_iff, es_high, es_high]
  refine and_congr ?_ Iff.rfl
  constructor
  · intro h c hc hn
    cases hcl : cls c with
    | none => exact absurd hcl hn
    | some i =>
      have hi := cls_lt c i hcl
      have := h i hi (by rw [es_bit _ hi]; exact (bits_bit rule i).mpr ⟨c, hc, hcl⟩)
      rw [es_bit _ hi] at this
      exact (bits_bit text i).mp this
  · intro h i hi hb
    rw [es_bit _ hi] at hb ⊢
    obtain ⟨c, hc, hcl⟩ := (bits_bit rule i).mp hb
    obtain ⟨c', hc', hcl'⟩ := h c hc (by rw [hcl]; simp)
    exact (bits_bit text i).mpr ⟨c', hc', by rw [hcl', hcl]⟩

/-! polynomial hashers -/

theorem foldl_mul_append (f : UInt32 → UInt8 → UInt32) (q : UInt32) (hf : ∀ h c, f h c = h * q + sx c)
    (b : List UInt8) (x y : UInt32) : b.foldl f x - b.foldl f y = (x - y) * q ^ b.length := by
  induction b generalizing x y with
  | nil => simp
  | cons c b ih =>
    simp only [List.foldl_cons, List.length_cons]
    rw [ih, hf, hf, UInt32.pow_succ]
    have : x * q + sx c - (y * q + sx c) = (x - y) * q := by
      rw [UInt32.sub_mul]
      rw [UInt32.sub_eq_add_neg, UInt32.neg_add, UInt32.sub_eq_add_neg, UInt32.sub_eq_add_neg]
      rw [UInt32.add_assoc, ← UInt32.add_assoc (sx c), UInt32.add_comm (sx c), UInt32.add_assoc, ← UInt32.sub_eq_add_neg,
        UInt32.sub_self, UInt32.add_zero]
    rw [this, UInt32.mul_assoc, UInt32.mul_comm q]

theorem shl6 (h : UInt32) : h <<< 6 = h * 64 := by
  rw [← UInt32.toNat_inj, UInt32.toNat_shiftLeft, UInt32.toNat_mul, Nat.shiftLeft_eq]; rfl
theorem shl16 (h : UInt32) : h <<< 16 = h * 65536 := by
  rw [← UInt32.toNat_inj, UInt32.toNat_shiftLeft, UInt32.toNat_mul, Nat.shiftLeft_eq]; rfl
theorem shl5 (h : UInt32) : h <<< 5 = h * 32 := by
  rw [← UInt32.toNat_inj, UInt32.toNat_shiftLeft, UInt32.toNat_mul, Nat.shiftLeft_eq]; rfl

theorem concat (f : UInt32 → UInt8 → UInt32) (q : UInt32) (hf : ∀ h c, f h c = h * q + sx c) (x : UInt32)
    (a b : List UInt8) : (a ++ b).foldl f x = (a.foldl f x - x) * q ^ b.length + b.foldl f x := by
  rw [List.foldl_append, ← foldl_mul_append f q hf b, UInt32.sub_add_cancel]

end Eni.Hasher
