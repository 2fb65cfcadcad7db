import Verif.Model.Crypto
import Verif.Spec.Hex
import Verif.Spec.Rsa
import Mathlib.FieldTheory.Finite.Basic
import Mathlib.Data.Nat.ModEq
/-!
# Lemmas about hexadecimal text and RSA
-/
namespace Eni.Crypto
open Spec.Hex Spec.Rsa

/-! ### hexadecimal -/

theorem byte_forall {P : UInt8 → Prop} (h : ∀ n < 256, P (UInt8.ofNat n)) (c : UInt8) : P c := by
  have := h c.toNat c.toNat_lt
  simpa using this

theorem digit_of : ∀ c : UInt8, digits[c.toNat / 16]? = some (hexDigit (c / 16)) ∧ digits[c.toNat % 16]? = some (hexDigit (c % 16)) ∧
    hex2digit (hexDigit (c / 16)) (hexDigit (c % 16)) = c := byte_forall (by decide +kernel)

theorem str2hex_encodes (s : Bytes) : Encodes s (str2hex s) := by
  induction s with
  | nil => exact .nil
  | cons c s ih => exact .cons (digit_of c).1 (digit_of c).2.1 ih

theorem str2hex_length (s : Bytes) : (str2hex s).length = 2 * s.length := by
  induction s with
  | nil => rfl
  | cons c s ih => simp [str2hex, ih]; omega

theorem hexLoop_str2hex (s acc : Bytes) : hexLoop (str2hex s) acc = .ok (acc ++ s) := by
  induction s generalizing acc with
  | nil => simp [str2hex, hexLoop]
  | cons c s ih => rw [str2hex, hexLoop, ih, (digit_of c).2.2]; simp

/-- A lower-case digit or a decimal digit. -/
def Low (c : UInt8) : Prop := (48 ≤ c ∧ c ≤ 57) ∨ (97 ≤ c ∧ c ≤ 102)

theorem low_digit : ∀ c : UInt8, Low c → ∃ x < 16, digitVal c = some x ∧ h2d c = x.toUInt8 ∧ hexDigit x.toUInt8 = c := by
  have : ∀ n < 256, Low (UInt8.ofNat n) → (match digitVal (UInt8.ofNat n) with
      | none => false
      | some x => decide (x < 16) && h2d (UInt8.ofNat n) == x.toUInt8 && hexDigit x.toUInt8 == UInt8.ofNat n) = true := by
    unfold Low
    decide +kernel
  refine byte_forall fun n hn hl => ?_
  have h := this n hn hl
  cases hd : digitVal (UInt8.ofNat n) with
  | none => rw [hd] at h; cases h
  | some x =>
    rw [hd] at h
    simp only [Bool.and_eq_true, decide_eq_true_eq, beq_iff_eq] at h
    exact ⟨x, h.1.1, rfl, h.1.2, h.2⟩

theorem pair : ∀ x < 16, ∀ y < 16, x.toUInt8 * 16 + y.toUInt8 = (16 * x + y).toUInt8 ∧ (16 * x + y).toUInt8 / 16 = x.toUInt8 ∧
    (16 * x + y).toUInt8 % 16 = y.toUInt8 := by decide +kernel

theorem hexLoop_low : ∀ (h acc : Bytes), h.length % 2 = 0 → (∀ c ∈ h, Low c) →
    ∃ s, decode h = some s ∧ hexLoop h acc = .ok (acc ++ s) ∧ str2hex s = h
  | [], acc, _, _ => ⟨[], rfl, by simp [hexLoop], rfl⟩
  | [_], _, h, _ => by simp at h
  | a :: b :: r, acc, h, hl => by
    obtain ⟨x, hx, d1, e1, f1⟩ := low_digit a (hl a (by simp))
    obtain ⟨y, hy, d2, e2, f2⟩ := low_digit b (hl b (by simp))
    obtain ⟨p1, p2, p3⟩ := pair x hx y hy
    have hd : hex2digit a b = (16 * x + y).toUInt8 := by rw [hex2digit, e1, e2, p1]
    obtain ⟨s, h1, h2, h3⟩ := hexLoop_low r (acc ++ [hex2digit a b]) (by simp at h; omega) (fun c hc => hl c (by simp [hc]))
    refine ⟨(16 * x + y).toUInt8 :: s, by simp [decode, d1, d2, h1], ?_, ?_⟩
    · rw [hexLoop, h2, hd]; simp
    · rw [str2hex, p2, p3, f1, f2, h3]

theorem hexLoop_ok : ∀ (h acc : Bytes), h.length % 2 = 0 → ∃ s, hexLoop h acc = .ok (acc ++ s) ∧ 2 * s.length = h.length
  | [], acc, _ => ⟨[], by simp [hexLoop], rfl⟩
  | [_], _, h => by simp at h
  | a :: b :: r, acc, h => by
    obtain ⟨s, h1, h2⟩ := hexLoop_ok r (acc ++ [hex2digit a b]) (by simp at h; omega)
    exact ⟨hex2digit a b :: s, by rw [hexLoop, h1]; simp, by simp at h2 ⊢; omega⟩

/-! ### numbers -/

theorem toNum_snoc (a : Bytes) (c : UInt8) : toNum (a ++ [c]) = 256 * toNum a + c.toNat := by
  simp [toNum, List.foldl_append]

theorem toBin_length (len n : Nat) : (toBin len n).length = len := by
  induction len generalizing n with
  | zero => rfl
  | succ len ih => simp [toBin, ih]

theorem toNum_toBin (len n : Nat) (h : n < 256 ^ len) : toNum (toBin len n) = n := by
  induction len generalizing n with
  | zero => simp at h; subst h; rfl
  | succ len ih =>
    rw [toBin, toNum_snoc, ih (n / 256) (by rw [pow_succ] at h; omega)]
    have : n.toUInt8.toNat = n % 256 := by simp
    omega

theorem toBin_toNum (b : Bytes) : toBin b.length (toNum b) = b := by
  induction b using List.reverseRecOn with
  | nil => rfl
  | append_singleton a c ih =>
    rw [List.length_append, List.length_singleton, toBin, toNum_snoc]
    have h1 : (256 * toNum a + c.toNat) / 256 = toNum a := by
      have := c.toNat_lt
      omega
    have h2 : (256 * toNum a + c.toNat).toUInt8 = c := by
      have := c.toNat_lt
      apply UInt8.toNat.inj
      simp
    rw [h1, h2, ih]

theorem lt_size (k : Key) : k.n < 256 ^ k.size := by
  have h := Nat.lt_size_self k.n
  refine lt_of_lt_of_le h ?_
  rw [show (256 : Nat) = 2 ^ 8 by norm_num, ← pow_mul]
  exact Nat.pow_le_pow_right (by norm_num) (by unfold Key.size; omega)

/-! ### RSA -/

theorem pow_mod_prime {p x : Nat} (hp : p.Prime) (m : Nat) (hx : 0 < x) (h : x % (p - 1) = 1 % (p - 1)) : m ^ x ≡ m [MOD p] := by
  have := Fact.mk hp
  rw [← ZMod.natCast_eq_natCast_iff]
  push_cast
  by_cases h0 : (m : ZMod p) = 0
  · rw [h0, zero_pow (by omega)]
  · have h1 := ZMod.pow_card_sub_one_eq_one h0
    have hm : (p - 1) ∣ x - 1 := (Nat.modEq_iff_dvd' hx).mp (Eq.symm h)
    obtain ⟨c, hc⟩ := hm
    rw [show x = (p - 1) * c + 1 by omega, pow_succ, pow_mul, h1, one_pow, one_mul]

theorem rsa_inverse {n e d : Nat} (h : KeyPair n e d) (m : Nat) (hm : m < n) : (m ^ e % n) ^ d % n = m := by
  obtain ⟨p, q, hp, hq, hne, rfl, h1, h2, h0⟩ := h
  have hc : Nat.Coprime p q := (Nat.coprime_primes hp hq).mpr hne
  have := (Nat.modEq_and_modEq_iff_modEq_mul hc).mp ⟨pow_mod_prime hp m h0 h1, pow_mod_prime hq m h0 h2⟩
  rw [← Nat.pow_mod, ← pow_mul]
  rw [Nat.ModEq, Nat.mod_eq_of_lt hm] at this
  exact this

theorem KeyPair.swap {n e d : Nat} (h : KeyPair n e d) : KeyPair n d e := by
  unfold KeyPair at *
  simpa only [Nat.mul_comm d e] using h

/-- The block that is encrypted: filled up with NUL or cut off. -/
def block (k : Key) (m : Bytes) : Bytes := m.take k.size ++ List.replicate (k.size - m.length) 0

theorem block_length (k : Key) (m : Bytes) : (block k m).length = k.size := by
  simp [block]; omega

theorem encryptWith_block (k : Key) (x : Nat) (m : Bytes) : encryptWith k x m = rawEncrypt k x (block k m) := by
  unfold encryptWith block
  split
  · rename_i h
    dsimp only
    rw [List.take_append, List.take_of_length_le (by omega), List.take_of_length_le (by simp)]
  · rename_i h
    rw [show k.size - m.length = 0 by omega]
    simp

theorem rawDecrypt_rawEncrypt {k : Key} {x y : Nat} (hk : KeyPair k.n x y) {b : Bytes} (hb : b.length = k.size) (hn : toNum b < k.n) :
    ∃ c, rawEncrypt k x b = some c ∧ c.length = k.size ∧ rawDecrypt k y c = some b := by
  have hn0 : 0 < k.n := by omega
  refine ⟨_, by rw [rawEncrypt, if_neg (by omega), if_neg (by omega)], toBin_length _ _, ?_⟩
  have hlt : toNum b ^ x % k.n < k.n := Nat.mod_lt _ hn0
  have hs := lt_size k
  rw [rawDecrypt, if_neg (by rw [toBin_length]; omega), toNum_toBin _ _ (by omega), if_neg (by omega), rsa_inverse hk _ hn]
  congr 1
  rw [← hb]
  exact toBin_toNum b

end Eni.Crypto
