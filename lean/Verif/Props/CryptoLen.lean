import Verif.Props.Crypto
import Verif.Model.CryptoLen
/-! C119: ciphertexts of the wrong length. -/
namespace Eni.Props
open Crypto Spec

theorem toInt32_small {n : Nat} (h : n % 2 ^ 32 < 2 ^ 31) : toInt32 n = ((n % 2 ^ 32 : Nat) : Int) := by
  have h' : n % 4294967296 < 2147483648 := h
  unfold toInt32
  rw [if_pos h']
  rfl

/-- The conversion to `int`: the number with the same residue that is representable. -/
theorem toInt32_spec (n : Nat) (z : Int) : toInt32 n = z ↔ (-2 ^ 31 ≤ z ∧ z < 2 ^ 31) ∧ (z - n) % 2 ^ 32 = 0 := by
  unfold toInt32
  split <;> omega

/-- The remaining lengths: openssl is given a negative number, and the outcome is whatever it does then. -/
theorem C119_negative (neg : Res (Option Bytes)) (k : Key) (ex : Nat) (m : Bytes) (h : 2 ^ 31 ≤ m.length % 2 ^ 32) : decryptLen neg k ex m = neg := by
  have : toInt32 m.length < 0 := by
    unfold toInt32
    rw [if_neg (by omega)]
    omega
  unfold decryptLen
  rw [if_pos this]

/-- C119 is false of the code; exactly: only the length modulo 2^32 counts. If it is below 2^31, so many bytes of the message are decrypted and the rest
is ignored. -/
theorem C119_exact_partial (neg : Res (Option Bytes)) (k : Key) (ex : Nat) (m : Bytes) (h : m.length % 2 ^ 32 < 2 ^ 31) :
    decryptLen neg k ex m = decryptWith k ex (m.take (m.length % 2 ^ 32)) := by
  unfold decryptLen decryptWith
  simp only [toInt32_small h]
  rw [if_neg (by omega), Int.toNat_natCast]
  cases rawDecrypt k ex (m.take (m.length % 2 ^ 32)) <;> rfl

/-- C119, the part that holds: a message of less than 2^31 bytes that is longer than the modulus is rejected, … -/
theorem C119_long_partial (neg : Res (Option Bytes)) (k : Key) (ex : Nat) (m : Bytes) (h : m.length < 2 ^ 31) (hk : k.size < m.length) :
    decryptLen neg k ex m = .ok none := by
  have e : m.length % 2 ^ 32 = m.length := Nat.mod_eq_of_lt (by omega)
  rw [C119_exact_partial neg k ex m (by omega), e, List.take_length, decryptWith, rawDecrypt, if_pos hk]

/-- … and a shorter one is decrypted as the other theorems say. -/
theorem C119_short (neg : Res (Option Bytes)) (k : Key) (m : Bytes) (h : m.length < 2 ^ 31) :
    pubDecryptLen neg k m = pubDecrypt k m ∧ privDecryptLen neg k m = privDecrypt k m := by
  have e : m.length % 2 ^ 32 = m.length := Nat.mod_eq_of_lt (by omega)
  constructor
  · rw [pubDecryptLen, C119_exact_partial neg k _ m (by omega), e, List.take_length]; rfl
  · rw [privDecryptLen, C119_exact_partial neg k _ m (by omega), e, List.take_length]; rfl

/-- C119 is false of the code: whatever follows a ciphertext is ignored if its length is a multiple of 2^32; every message that survives encryption and
decryption still does. -/
theorem C119_tail_false (neg : Res (Option Bytes)) (k : Key) (hk : Rsa.KeyPair k.n k.e k.d) (hs : k.size < 2 ^ 31) (pubFirst : Bool) (m more : Bytes)
    (hm : m.length < k.size) (h0 : 0 ∉ m) (hn : toNum (m ++ List.replicate (k.size - m.length) 0) < k.n) (q : Nat)
    (hmore : more.length = q * 2 ^ 32) : tripWith neg k pubFirst m more = .ok (some m) := by
  have hrt := C48_partial k hk pubFirst m hm h0 hn
  have len : ∀ ex c, encryptWith k ex m = some c → c.length = k.size := by
    intro ex c hc
    rw [encryptWith_block, rawEncrypt] at hc
    split at hc
    · cases hc
    · split at hc
      · cases hc
      · cases hc; exact toBin_length _ _
  have cut : ∀ ex (c : Bytes), c.length = k.size → decryptLen neg k ex (c ++ more) = decryptWith k ex c := by
    intro ex c hc
    have e : (c ++ more).length % 2 ^ 32 = c.length := by
      rw [List.length_append, hmore, hc, Nat.add_mul_mod_self_right]
      exact Nat.mod_eq_of_lt (by omega)
    rw [C119_exact_partial neg k ex _ (by omega), e, List.take_left']
    rfl
  unfold roundTrip at hrt
  unfold tripWith
  cases pubFirst with
  | true =>
    simp only [if_true] at hrt ⊢
    cases hc : pubEncrypt k m with
    | none => rw [hc] at hrt; cases hrt
    | some c =>
      rw [hc] at hrt
      rw [← hrt]
      exact cut _ c (len _ c hc)
  | false =>
    simp only [Bool.false_eq_true, if_false] at hrt ⊢
    cases hc : privEncrypt k m with
    | none => rw [hc] at hrt; cases hrt
    | some c =>
      rw [hc] at hrt
      rw [← hrt]
      exact cut _ c (len _ c hc)

/-- The key of the examples of C48, the message `\x0c` and 4 GiB of zeros meet the hypotheses. -/
example : tripWith (.ok none) smallKey true [12] (List.replicate (1 * 2 ^ 32) 0) = .ok (some [12]) :=
  C119_tail_false (.ok none) smallKey smallKey_pair (by decide) true [12] _ (by decide) (by decide) (by decide) 1 (by rw [List.length_replicate])

/-- 2 GiB. -/
example (neg : Res (Option Bytes)) : decryptLen neg smallKey 17 (List.replicate (2 ^ 31) 0) = neg := C119_negative _ _ _ _ (by rw [List.length_replicate]; decide)
example : toInt32 4294967295 = -1 := (toInt32_spec _ _).mpr (by decide)

/-- One byte more than the modulus has. -/
example : decryptLen (.ok none) smallKey 17 [0, 0, 1] = .ok none := C119_long_partial _ _ _ _ (by decide) (by decide)

end Eni.Props
