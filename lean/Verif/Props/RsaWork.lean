import Verif.Proofs.RsaWork
import Verif.Props.Crypto
import Mathlib.NumberTheory.Bertrand
/-!
# C129: the price of an RSA operation and its work
-/
namespace Eni.Props
open Spec Base Json Crypto

/-- C129. Every program of multiplications that reaches the exponent of the key computes the number that the operation returns: the power modulo
the modulus. -/
theorem C129_method (k : Key) (x : Nat) (p : Rsa.Prog) (ex : Nat) (h : Rsa.Power p ex) (b : Bytes) (hb : b.length = k.size) (hx : toNum b = x)
    (hlt : x < k.n) :
    ∃ vs y, Rsa.exec (fun a b => a * b % k.n) [x % k.n] p = some vs ∧ vs.getLast? = some y ∧ rawEncrypt k ex b = some (toBin k.size y) := by
  obtain ⟨vs, h1, h2⟩ := exec_powers k.n x p ex h
  refine ⟨vs, _, h1, h2, ?_⟩
  rw [rawEncrypt, if_neg (by omega), if_neg (by omega), hx]

/-- C129. The least number of multiplications for the exponent `e`, whatever the method, is between the binary logarithm of `e` and twice that. -/
theorem C129_least (e : Nat) (he : 0 < e) : (∀ p, Rsa.Power p e → e ≤ 2 ^ p.length) ∧ ∃ p, Rsa.Power p e ∧ 2 ^ p.length ≤ e ^ 2 := by
  refine ⟨fun p => power_le, ?_⟩
  obtain ⟨p, h1, h2⟩ := power_exists e he
  exact ⟨p, h1, by rw [pow_two]; exact h2⟩

/-- C129. The price of both operations is ten times the size of the modulus, whatever the exponents and the message. -/
theorem C129_price (pem : Bytes → Option Key) (L : Layout) (t m : Bytes) (k : Key) (hk : pem (cstr t) = some k) :
    opGas (encryptOp pem) L (twoArgs t m) = .ok (10 * k.size) ∧
    (∀ c, hex2str m = .ok (some c) → opGas (decryptOp pem) L (twoArgs t m) = .ok (10 * k.size)) := by
  constructor
  · have h1 : (encryptOp pem).parse (encryptOp pem).init [.str t, .str m] = (⟨some k, m⟩, .ok true) := by
      simp [encryptOp, Value.argAt, Value.toStr, hk]
    have hck := check_ok (H := encryptOp pem) (o := ⟨false, false, .arr [.str t, .str m], .arr [], (encryptOp pem).init, []⟩) rfl rfl h1
    simp only [opGas, construct_of (parse_two L t m), Res.ok_bind, copyTop, getGas, hck]
    simp [encryptOp, Nat.mul_comm]
  · intro c hc
    have h1 : (decryptOp pem).parse (decryptOp pem).init [.str t, .str m] = (⟨some k, c⟩, .ok true) := by
      simp [decryptOp, Value.argAt, Value.toStr, hk, hc]
    have hck := check_ok (H := decryptOp pem) (o := ⟨false, false, .arr [.str t, .str m], .arr [], (decryptOp pem).init, []⟩) rfl rfl h1
    simp only [opGas, construct_of (parse_two L t m), Res.ok_bind, copyTop, getGas, hck]
    simp [decryptOp, Nat.mul_comm]

/-- C129 is false: whoever has a key can add any common multiple of the orders to the public exponent. It remains a key pair, every call has the same
result and the same price, but needs at least the logarithm of the new exponent as number of multiplications. -/
theorem C129_same_false (p q e d A : Nat) (hp : p.Prime) (hq : q.Prime) (hne : p ≠ q) (h1 : e * d % (p - 1) = 1 % (p - 1))
    (h2 : e * d % (q - 1) = 1 % (q - 1)) (h0 : 0 < e * d) (hA : (p - 1) ∣ A) (hB : (q - 1) ∣ A)
    (pem : Bytes → Option Key) (L : Layout) (t t' : Bytes) (ht : pem (cstr t) = some ⟨p * q, e, d⟩) (ht' : pem (cstr t') = some ⟨p * q, e + A, d⟩) :
    Rsa.KeyPair (p * q) (e + A) d ∧
    (∀ m, opRun (encryptOp pem) L (twoArgs t' m) = opRun (encryptOp pem) L (twoArgs t m) ∧
      opGas (encryptOp pem) L (twoArgs t' m) = opGas (encryptOp pem) L (twoArgs t m)) ∧
    (∀ P, Rsa.Power P (e + A) → e + A ≤ 2 ^ P.length) ∧ ∃ P, Rsa.Power P e ∧ 2 ^ P.length ≤ e ^ 2 := by
  have he : 0 < e := Nat.pos_of_mul_pos_right h0
  have hmod : ∀ r, r ∣ A → (e + A) * d % r = e * d % r := by
    rintro r ⟨j, rfl⟩
    rw [Nat.add_mul, Nat.mul_assoc, Nat.add_mul_mod_self_left]
  refine ⟨⟨p, q, hp, hq, hne, rfl, by rw [hmod _ hA, h1], by rw [hmod _ hB, h2], ?_⟩, fun m => ⟨?_, ?_⟩, fun P => power_le, (C129_least e he).2⟩
  · rw [Nat.add_mul]; omega
  · rw [C64_encrypt, C64_encrypt, ht, ht']
    have : pubEncrypt ⟨p * q, e + A, d⟩ m = pubEncrypt ⟨p * q, e, d⟩ m := by
      simp only [pubEncrypt, encryptWith, rawEncrypt, Key.size]
      rw [pow_add_orders hp hq hne hA hB _ e he]
      rfl
    simp only [this]
  · rw [(C129_price pem L t m _ ht).1, (C129_price pem L t' m _ ht').1]
    rfl

/-- every number that leaves 2 modulo 3 has a prime factor that does -/
theorem prime_two_mod_three (m : Nat) : m % 3 = 2 → ∃ p, p.Prime ∧ p ∣ m ∧ p % 3 = 2 := by
  induction m using Nat.strongRecOn with
  | _ m ih =>
    intro hm
    have hp : (Nat.minFac m).Prime := Nat.minFac_prime (by omega)
    obtain ⟨j, hj⟩ := Nat.minFac_dvd m
    have h3 : m.minFac % 3 * (j % 3) % 3 = 2 := by rw [← Nat.mul_mod, ← hj]; exact hm
    have hc : m.minFac % 3 = 0 ∨ m.minFac % 3 = 1 ∨ m.minFac % 3 = 2 := by omega
    rcases hc with h | h | h
    · rw [h] at h3; simp at h3
    · rw [h] at h3
      have hlt : j < m := by
        have h2 := hp.two_le
        have hj0 : 0 < j := by
          rcases Nat.eq_zero_or_pos j with h0 | h0
          · rw [h0] at h3; simp at h3
          · exact h0
        calc j < 2 * j := by omega
          _ ≤ m.minFac * j := Nat.mul_le_mul_right _ h2
          _ = m := hj.symm
      obtain ⟨p, h4, h5, h6⟩ := ih j hlt (by omega)
      exact ⟨p, h4, h5.trans ⟨m.minFac, by rw [Nat.mul_comm]; exact hj⟩, h6⟩
    · exact ⟨_, hp, Nat.minFac_dvd m, h⟩

theorem large_prime (b : Nat) : ∃ p, p.Prime ∧ b < p ∧ p % 3 = 2 := by
  have hf : 0 < Nat.factorial b := Nat.factorial_pos b
  obtain ⟨p, hp, hd, h3⟩ := prime_two_mod_three (3 * Nat.factorial b - 1) (by omega)
  refine ⟨p, hp, ?_, h3⟩
  by_contra hle
  have h1 : p ∣ Nat.factorial b := Nat.dvd_factorial hp.pos (by omega)
  have h2 : p ∣ 3 * Nat.factorial b := h1.mul_left 3
  have h4 : p ∣ 3 * Nat.factorial b - (3 * Nat.factorial b - 1) := Nat.dvd_sub h2 hd
  rw [show 3 * Nat.factorial b - (3 * Nat.factorial b - 1) = 1 by omega] at h4
  exact hp.one_lt.ne' (Nat.dvd_one.mp h4)

/-- C129 is false of the model: there is no factor. For every `c` there is a key pair with the public exponent 3, which takes two multiplications, and a
public exponent below the modulus for the same results at the same price (`C129_same_false`) that takes more than `c` times as many with every
method. If a multiplication takes work proportional to the square of the size, no multiple of the price covers the work either. Limits of this
statement: the model leaves out the limits of openssl (see Model/Crypto), which refuses exponents of more than 64 bits with a modulus of more than 3072
bits, so for large `c` these keys are refused by the real library; `C129_limits_false` is the statement within the limits. -/
theorem C129_factor_false (c : Nat) : ∃ p q d A, p.Prime ∧ q.Prime ∧ p ≠ q ∧ (p - 1) ∣ A ∧ (q - 1) ∣ A ∧ Rsa.KeyPair (p * q) 3 d ∧
    Rsa.KeyPair (p * q) (3 + A) d ∧ 3 + A < p * q ∧ Rsa.Power [(0, 0), (1, 0)] 3 ∧
    ∀ P, Rsa.Power P (3 + A) → c * 2 < P.length ∧
      c * (10 * Key.size ⟨p * q, 3 + A, d⟩) < P.length * Key.size ⟨p * q, 3 + A, d⟩ ^ 2 := by
  obtain ⟨p, hp, hpb, hp3⟩ := large_prime (2 ^ (10 * c + 2) + 5)
  obtain ⟨q, hq, hqb, hq3⟩ := large_prime p
  have hpow : 0 < 2 ^ (10 * c + 2) := Nat.two_pow_pos _
  obtain ⟨a, rfl⟩ : ∃ a, p = a + 1 := ⟨p - 1, by omega⟩
  obtain ⟨b, rfl⟩ : ∃ b, q = b + 1 := ⟨q - 1, by omega⟩
  have hM3 : a * b % 3 = 1 := by rw [Nat.mul_mod, show a % 3 = 1 by omega, show b % 3 = 1 by omega]
  have hd : 3 * ((2 * (a * b) + 1) / 3) = 2 * (a * b) + 1 := by omega
  have ha1 : 1 < a := by omega
  have hb1 : 1 < b := by omega
  have e1 : (3 * ((2 * (a * b) + 1) / 3)) % a = 1 % a := by
    rw [hd, show 2 * (a * b) + 1 = 1 + a * (2 * b) by ring, Nat.add_mul_mod_self_left]
  have e2 : (3 * ((2 * (a * b) + 1) / 3)) % b = 1 % b := by
    rw [hd, show 2 * (a * b) + 1 = 1 + b * (2 * a) by ring, Nat.add_mul_mod_self_left]
  have hk : Rsa.KeyPair ((a + 1) * (b + 1)) 3 ((2 * (a * b) + 1) / 3) :=
    ⟨a + 1, b + 1, hp, hq, by omega, rfl, e1, e2, by omega⟩
  have hk2 := (C129_same_false (a + 1) (b + 1) 3 ((2 * (a * b) + 1) / 3) (a * b) hp hq (by omega) e1 e2 (by omega) (Dvd.intro b rfl)
    (Dvd.intro_left a rfl) (fun t => if t = [] then some ⟨(a + 1) * (b + 1), 3, (2 * (a * b) + 1) / 3⟩ else
      some ⟨(a + 1) * (b + 1), 3 + a * b, (2 * (a * b) + 1) / 3⟩) ⟨0, 0, 0⟩ [] [1] rfl rfl).1
  refine ⟨a + 1, b + 1, (2 * (a * b) + 1) / 3, a * b, hp, hq, by omega, Dvd.intro b rfl, Dvd.intro_left a rfl, hk, hk2, ?_, ⟨_, rfl, rfl⟩, fun P hP => ?_⟩
  · have : (a + 1) * (b + 1) = a * b + a + b + 1 := by ring
    omega
  · have h1 := power_le hP
    have h2 : a ≤ a * b := Nat.le_mul_of_pos_right a (by omega)
    have h3 : 2 ^ (10 * c + 2) < 2 ^ P.length := by omega
    have h4 : 10 * c + 2 < P.length := (Nat.pow_lt_pow_iff_right (by omega : 1 < 2)).mp h3
    refine ⟨by omega, ?_⟩
    have hs : 0 < Key.size ⟨(a + 1) * (b + 1), 3 + a * b, (2 * (a * b) + 1) / 3⟩ := by
      have := lt_size ⟨(a + 1) * (b + 1), 3 + a * b, (2 * (a * b) + 1) / 3⟩
      rcases Nat.eq_zero_or_pos (Key.size ⟨(a + 1) * (b + 1), 3 + a * b, (2 * (a * b) + 1) / 3⟩) with h | h
      · rw [h] at this
        simp only [pow_zero] at this
        have h5 : 0 < (a + 1) * (b + 1) := Nat.mul_pos (by omega) (by omega)
        omega
      · exact h
    generalize Key.size ⟨(a + 1) * (b + 1), 3 + a * b, (2 * (a * b) + 1) / 3⟩ = s at hs ⊢
    calc c * (10 * s) = 10 * c * s := by ring
      _ < P.length * s := Nat.mul_lt_mul_of_pos_right (by omega) hs
      _ ≤ P.length * s * s := Nat.le_mul_of_pos_right _ hs
      _ = P.length * s ^ 2 := by ring

/-- C129 is false within the limits of openssl as well: for every `m` there is a modulus of at most `2 m + 4` bits with the public exponents 1,
which takes no multiplication, and `1 + A` below the modulus, which takes at least `2 m + 1` with every method, for the same results at the same price
(`C129_same_false`). For `m = 1534` the modulus has at most 3072 bits. -/
theorem C129_limits_false (m : Nat) : ∃ p q A, p.Prime ∧ q.Prime ∧ p ≠ q ∧ (p - 1) ∣ A ∧ (q - 1) ∣ A ∧ p * q < 2 ^ (2 * m + 4) ∧ 1 + A < p * q ∧
    Rsa.KeyPair (p * q) 1 1 ∧ Rsa.KeyPair (p * q) (1 + A) 1 ∧ Rsa.Power [] 1 ∧ ∀ P, Rsa.Power P (1 + A) → 2 * m + 1 ≤ P.length := by
  obtain ⟨p, hp, hp1, hp2⟩ := Nat.exists_prime_lt_and_le_two_mul (2 ^ m) (Nat.two_pow_pos _).ne'
  obtain ⟨q, hq, hq1, hq2⟩ := Nat.exists_prime_lt_and_le_two_mul (2 ^ (m + 1)) (Nat.two_pow_pos _).ne'
  rw [← pow_succ'] at hp2 hq2
  have hne : p ≠ q := fun h => absurd (h ▸ hp2) (Nat.not_le.mpr hq1)
  obtain ⟨a, rfl⟩ : ∃ a, p = a + 1 := ⟨p - 1, (Nat.sub_add_cancel hp.pos).symm⟩
  obtain ⟨b, rfl⟩ : ∃ b, q = b + 1 := ⟨q - 1, (Nat.sub_add_cancel hq.pos).symm⟩
  have ha : 2 ^ m ≤ a := Nat.lt_succ_iff.mp hp1
  have hb : 2 ^ (m + 1) ≤ b := Nat.lt_succ_iff.mp hq1
  have hk2 := (C129_same_false (a + 1) (b + 1) 1 1 (a * b) hp hq hne rfl rfl (by decide) (Dvd.intro b rfl) (Dvd.intro_left a rfl)
    (fun t => if t = [] then some ⟨(a + 1) * (b + 1), 1, 1⟩ else some ⟨(a + 1) * (b + 1), 1 + a * b, 1⟩) ⟨0, 0, 0⟩ [] [1] rfl rfl).1
  refine ⟨a + 1, b + 1, a * b, hp, hq, hne, Dvd.intro b rfl, Dvd.intro_left a rfl, ?_, ?_, ⟨a + 1, b + 1, hp, hq, hne, rfl, rfl, rfl, by decide⟩, hk2,
    ⟨_, rfl, rfl⟩, fun P hP => ?_⟩
  · calc (a + 1) * (b + 1) ≤ 2 ^ (m + 1) * 2 ^ (m + 1 + 1) := Nat.mul_le_mul hp2 hq2
      _ = 2 ^ (2 * m + 3) := by rw [← pow_add]; congr 1; omega
      _ < 2 ^ (2 * m + 4) := Nat.pow_lt_pow_right (by norm_num) (by omega)
  · have e : (a + 1) * (b + 1) = 1 + a * b + (a + b) := by ring
    have : 0 < a := lt_of_lt_of_le (Nat.two_pow_pos _) ha
    rw [e]
    exact Nat.lt_add_of_pos_right (Nat.add_pos_left this b)
  · have h1 : 2 ^ (2 * m + 1) ≤ 2 ^ P.length := by
      calc 2 ^ (2 * m + 1) = 2 ^ m * 2 ^ (m + 1) := by rw [← pow_add]; congr 1; omega
        _ ≤ a * b := Nat.mul_le_mul ha hb
        _ ≤ 1 + a * b := Nat.le_add_left _ _
        _ ≤ 2 ^ P.length := power_le hP
    exact (Nat.pow_le_pow_iff_right (by norm_num)).mp h1

/-- C129, what holds: for exponents below the modulus, as openssl requires, the number of multiplications is at most 1.6 times the price. -/
theorem C129_bound_partial (k : Key) (ex : Nat) (h0 : 0 < ex) (hlt : ex < k.n) :
    ∃ P, Rsa.Power P ex ∧ 10 * P.length ≤ 16 * (10 * k.size) := by
  obtain ⟨P, h1, h2⟩ := power_exists ex h0
  refine ⟨P, h1, ?_⟩
  have hs := lt_size k
  have h3 : ex * ex < 256 ^ k.size * 256 ^ k.size := Nat.mul_lt_mul'' (by omega) (by omega)
  have h4 : 2 ^ P.length < 2 ^ (16 * k.size) := by
    calc 2 ^ P.length ≤ ex * ex := h2
      _ < 256 ^ k.size * 256 ^ k.size := h3
      _ = 2 ^ (16 * k.size) := by rw [← mul_pow, pow_mul]; norm_num
  have := (Nat.pow_lt_pow_iff_right (by omega : 1 < 2)).mp h4
  omega

/-- The small key of C48 with 17 and 17 + 780 as exponents (780 is the least common multiple of 60 and 52). -/
example (L : Layout) := C129_same_false 61 53 17 413 780 (by norm_num) (by norm_num) (by decide) (by decide) (by decide) (by decide) (by decide) (by decide)
  (fun t => if t = [80] then some ⟨61 * 53, 17, 413⟩ else some ⟨61 * 53, 17 + 780, 413⟩) L [80] [81] rfl rfl

example := C129_limits_false 1534
example := C129_bound_partial smallKey 413 (by decide) (by decide)

example : Rsa.Power [(0, 0), (1, 1), (2, 2), (3, 3), (4, 0)] 17 := ⟨_, rfl, rfl⟩

example := C129_method smallKey 3072 [(0, 0), (1, 1), (2, 2), (3, 3), (4, 0)] 17 ⟨_, rfl, rfl⟩ [12, 0] (by decide) rfl (by decide)

end Eni.Props
