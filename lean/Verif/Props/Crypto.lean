import Verif.Proofs.Crypto
import Verif.Props.Reverse
import Mathlib.Tactic.NormNum.Prime
/-!
# Properties of eni_crypto: C47, C48, C64
-/
namespace Eni.Props
open Spec Base Json Crypto

/-! ### C47 -/

/-- C47: the notation is the usual one, and it is read back. -/
theorem C47_bytes (s : Bytes) : Hex.Encodes s (str2hex s) ∧ hex2str (str2hex s) = .ok (some s) := by
  refine ⟨str2hex_encodes s, ?_⟩
  have := str2hex_length s
  rw [hex2str, if_neg (by omega), hexLoop_str2hex]
  rfl

/-- C47: odd lengths are rejected; every other string is accepted without undefined behaviour, whatever its characters. -/
theorem C47_length (h : Bytes) : (h.length % 2 = 1 → hex2str h = .ok none) ∧
    (h.length % 2 = 0 → ∃ s, hex2str h = .ok (some s) ∧ 2 * s.length = h.length) := by
  constructor
  · intro ho
    rw [hex2str, if_pos (by omega)]
  · intro he
    obtain ⟨s, h1, h2⟩ := hexLoop_ok h [] he
    refine ⟨s, ?_, h2⟩
    rw [hex2str, if_neg (by omega), h1]
    rfl

example : hex2str [48, 97, 102] = .ok none ∧ ∃ s, hex2str [48, 97, 102, 57] = .ok (some s) ∧ 2 * s.length = 4 :=
  ⟨(C47_length [48, 97, 102]).1 rfl, (C47_length [48, 97, 102, 57]).2 rfl⟩

/-- C47 is false of the code: upper-case digits are misread (`AA` is read as the byte 0x21, not 0xaa), and characters that are not digits
are accepted. -/
theorem C47_upper_case_false : Hex.decode [65, 65] = some [170] ∧ hex2str [65, 65] = .ok (some [33]) ∧ str2hex [33] = [50, 49] ∧
    hex2str [122, 122] = .ok (some [83]) := by
  decide +kernel

/-- C47, the part that holds: digits `0-9a-f` are read as the bytes they denote and written back unchanged. -/
theorem C47_digits_partial (h : Bytes) (he : h.length % 2 = 0) (hl : ∀ c ∈ h, (48 ≤ c ∧ c ≤ 57) ∨ (97 ≤ c ∧ c ≤ 102)) :
    ∃ s, Hex.decode h = some s ∧ hex2str h = .ok (some s) ∧ str2hex s = h := by
  obtain ⟨s, h1, h2, h3⟩ := hexLoop_low h [] he hl
  refine ⟨s, h1, ?_, h3⟩
  rw [hex2str, if_neg (by omega), h2]
  rfl

example : ∃ s, Hex.decode [48, 97, 102, 57] = some s ∧ hex2str [48, 97, 102, 57] = .ok (some s) ∧ str2hex s = [48, 97, 102, 57] :=
  C47_digits_partial _ rfl (by decide)

/-! ### C48 -/

/-- The message and its exponents: `pub_encrypt` then `priv_decrypt`, or `priv_encrypt` then `pub_decrypt`. -/
def roundTrip (k : Key) (pubFirst : Bool) (m : Bytes) : Res (Option Bytes) :=
  match if pubFirst then pubEncrypt k m else privEncrypt k m with
  | none => .ok none
  | some c => if pubFirst then privDecrypt k c else pubDecrypt k c

/-- C48, complete description: for every key pair, both directions and every message. The block is the message filled up with NUL, or its
first `RSA_size` bytes. -/
theorem C48_outcome (k : Key) (hk : Rsa.KeyPair k.n k.e k.d) (pubFirst : Bool) (m : Bytes) :
    roundTrip k pubFirst m =
      if toNum (m.take k.size ++ List.replicate (k.size - m.length) 0) ≥ k.n then .ok none
      else if m.length < k.size ∨ 0 ∈ m.take k.size then .ok (some (cstr (m.take k.size)))
      else .ub .outOfBounds := by
  have key : ∀ x y, Rsa.KeyPair k.n x y → (match encryptWith k x m with | none => Res.ok none | some c => decryptWith k y c) =
      if toNum (block k m) ≥ k.n then .ok none
      else if m.length < k.size ∨ 0 ∈ m.take k.size then .ok (some (cstr (m.take k.size)))
      else .ub .outOfBounds := by
    intro x y hxy
    rw [encryptWith_block]
    by_cases hn : toNum (block k m) ≥ k.n
    · rw [if_pos hn, rawEncrypt, if_neg (by rw [block_length]; simp), if_pos hn]
    · rw [if_neg hn]
      obtain ⟨c, e1, _, e2⟩ := rawDecrypt_rawEncrypt hxy (block_length k m) (by omega)
      rw [e1]
      simp only [decryptWith, e2]
      have hmem : 0 ∈ block k m ↔ (m.length < k.size ∨ 0 ∈ m.take k.size) := by
        unfold block
        rw [List.mem_append, List.mem_replicate]
        constructor
        · rintro (h | ⟨h, _⟩)
          · exact .inr h
          · exact .inl (by omega)
        · rintro (h | h)
          · exact .inr ⟨by omega, rfl⟩
          · exact .inl h
      by_cases h0 : 0 ∈ block k m
      · rw [if_pos h0, if_pos (hmem.mp h0)]
        have : cstr (block k m) = cstr (m.take k.size) := by
          unfold cstr block
          rw [List.takeWhile_append]
          split
          · rename_i h
            have : List.takeWhile (· ≠ (0 : UInt8)) (List.replicate (k.size - m.length) 0) = [] := by
              cases k.size - m.length <;> simp [List.replicate_succ]
            rw [this, List.append_nil]
            have hp := List.takeWhile_prefix (fun x : UInt8 => decide (x ≠ 0)) (l := m.take k.size)
            exact (hp.eq_of_length h).symm
          · rfl
        rw [this]
      · rw [if_neg h0, if_neg (fun h => h0 (hmem.mpr h))]
  cases pubFirst with
  | true => exact key k.e k.d hk
  | false => exact key k.d k.e (KeyPair.swap hk)

/-- C48, the part that holds: a message shorter than the modulus, without NUL, whose padded block is below the modulus. -/
theorem C48_partial (k : Key) (hk : Rsa.KeyPair k.n k.e k.d) (pubFirst : Bool) (m : Bytes) (hm : m.length < k.size) (h0 : 0 ∉ m)
    (hn : toNum (m ++ List.replicate (k.size - m.length) 0) < k.n) : roundTrip k pubFirst m = .ok (some m) := by
  have ht : m.take k.size = m := List.take_of_length_le (by omega)
  rw [C48_outcome k hk, ht, if_neg (by omega), if_pos (.inl hm), cstr_of_notMem h0]

/-- n = 61 * 53, e = 17, d = 413: a key with a modulus of two bytes. -/
def smallKey : Key := ⟨3233, 17, 413⟩

theorem smallKey_pair : Rsa.KeyPair smallKey.n smallKey.e smallKey.d :=
  ⟨61, 53, by norm_num, by norm_num, by decide, rfl, by decide, by decide, by decide⟩

example := C48_outcome smallKey smallKey_pair true [12, 1]

/-- `\x0c` is shorter than the modulus, without NUL, and 0x0c00 < 3233. -/
example : (∀ b, roundTrip smallKey b [12] = .ok (some [12])) ∧ smallKey.size = 2 := by
  have hs : smallKey.size = 2 := by decide
  exact ⟨fun b => C48_partial smallKey smallKey_pair b [12] (by rw [hs]; decide) (by decide) (by rw [hs]; decide), hs⟩

/-- C48 is false of the code, in several ways, for every key pair. A message with a NUL is cut off there. -/
theorem C48_nul_false (k : Key) (hk : Rsa.KeyPair k.n k.e k.d) (hs : 0 < k.size) (pubFirst : Bool) : roundTrip k pubFirst [0] = .ok (some []) := by
  rw [C48_outcome k hk]
  obtain ⟨len, hlen⟩ : ∃ len, k.size = len + 1 := ⟨k.size - 1, by omega⟩
  have hz : ∀ l, toNum (List.replicate l (0 : UInt8)) = 0 := by
    intro l
    induction l with
    | zero => rfl
    | succ l ih => rw [List.replicate_succ', toNum_snoc, ih]; rfl
  have hn0 : 0 < k.n := by
    obtain ⟨p, q, hp, hq, _, h, _⟩ := hk
    rw [h]
    exact Nat.mul_pos hp.pos hq.pos
  have hb : ([0] : Bytes).take k.size ++ List.replicate (k.size - ([0] : Bytes).length) 0 = List.replicate (len + 1) 0 := by
    rw [hlen, List.replicate_succ]
    simp
  rw [hb, hz, if_neg (by omega), if_pos (.inr (by rw [hlen]; simp)), hlen]
  simp [cstr]

/-- ... a message as long as the modulus, without NUL, makes the decryption read behind its buffer ... -/
theorem C48_full_length_false (k : Key) (hk : Rsa.KeyPair k.n k.e k.d) (pubFirst : Bool) (m : Bytes) (hm : m.length = k.size) (h0 : 0 ∉ m)
    (hn : toNum m < k.n) : roundTrip k pubFirst m = .ub .outOfBounds := by
  have ht : m.take k.size = m := List.take_of_length_le (by omega)
  rw [C48_outcome k hk, ht, hm, Nat.sub_self, List.replicate_zero, List.append_nil, if_neg (by omega), if_neg]
  rintro (h | h)
  · omega
  · exact h0 h

/-- ... and short messages with a large first byte are refused, because the padding is appended at the wrong end. -/
theorem C48_refused_false : ∀ b, roundTrip smallKey b [13] = .ok none := by
  intro b
  have hs : smallKey.size = 2 := by decide
  rw [C48_outcome smallKey smallKey_pair, if_pos]
  rw [hs]
  decide

example : ∃ m : Bytes, m.length = smallKey.size ∧ 0 ∉ m ∧ toNum m < smallKey.n := ⟨[12, 1], by decide⟩

/-- C48: whatever is longer than the modulus is silently cut off. -/
theorem C48_long_false (k : Key) (hk : Rsa.KeyPair k.n k.e k.d) (pubFirst : Bool) (m more : Bytes) (hm : m.length = k.size) :
    roundTrip k pubFirst (m ++ more) = roundTrip k pubFirst m := by
  rw [C48_outcome k hk, C48_outcome k hk]
  have h1 : (m ++ more).take k.size = m := by rw [List.take_append_of_le_length (by omega), List.take_of_length_le (by omega)]
  have h2 : m.take k.size = m := List.take_of_length_le (by omega)
  rw [h1, h2, List.length_append, show k.size - (m.length + more.length) = 0 by omega, show k.size - m.length = 0 by omega]
  congr 1
  by_cases h0 : 0 ∈ m
  · simp [h0]
  · rw [if_neg, if_neg]
    · simp [h0]; omega
    · simp [h0]; omega

/-! ### C64 -/

/-- The JSON argument `[pem, x]`. -/
def twoArgs (pem x : Bytes) : Bytes := Value.print (.arr [.str pem, .str x])

theorem parse_two (L : Layout) (a b : Bytes) : parse L (cstr (twoArgs a b)) = .ok ⟨true, .arr [.str a, .str b]⟩ := by
  obtain ⟨ht, h0⟩ := print_strs [a, b]
  have := parse_strs L (w := []) (r := []) [a, b] (by simp [WS]) ht (by simpa using h0)
  simpa [twoArgs] using this

/-- C64: what `rsa_encrypt_run` returns. The ciphertext is printed with two digits for each byte of the modulus. -/
theorem C64_encrypt (pem : Bytes → Option Key) (L : Layout) (t m : Bytes) :
    opRun (encryptOp pem) L (twoArgs t m) =
      match pem (cstr t) with
      | none => .ok none
      | some k =>
        match pubEncrypt k m with
        | none => .ok none
        | some c => .ok (some (Value.print (.arr [.str (str2hex c)]))) := by
  cases hp : pem (cstr t) with
  | none =>
    have h1 : (encryptOp pem).parse (encryptOp pem).init [.str t, .str m] = (⟨none, []⟩, .ok false) := by
      simp [encryptOp, Value.argAt, Value.toStr, hp]
    have hck := check_ok (H := encryptOp pem) (o := ⟨false, false, .arr [.str t, .str m], .arr [], (encryptOp pem).init, []⟩) rfl rfl h1
    simp only [opRun, construct_of (parse_two L t m), Res.ok_bind, copyTop, start, hck]
  | some k =>
    have h1 : (encryptOp pem).parse (encryptOp pem).init [.str t, .str m] = (⟨some k, m⟩, .ok true) := by
      simp [encryptOp, Value.argAt, Value.toStr, hp]
    cases hc : pubEncrypt k m with
    | none =>
      have hr : (encryptOp pem).run ⟨some k, m⟩ [] = (⟨some k, m⟩, [], .ok false) := by simp [encryptOp, hc]
      have hck := check_ok (H := encryptOp pem) (o := ⟨false, false, .arr [.str t, .str m], .arr [], (encryptOp pem).init, []⟩) rfl rfl h1
      simp only [opRun, construct_of (parse_two L t m), Res.ok_bind, copyTop, start, hck, Value.toArray, hr, hc]
    | some c =>
      have hr : (encryptOp pem).run ⟨some k, m⟩ [] = (⟨some k, m⟩, [.str (str2hex c)], .ok true) := by simp [encryptOp, hc]
      obtain ⟨hs1, hf, _⟩ := shows_strs [str2hex c]
      simp only [hc]
      exact C38_entry (encryptOp pem) L _ _ (parse_two L t m) _ _ h1 [.str (str2hex c)] hr _ hs1 hf

/-- C64: a message encrypted through `rsa_encrypt_run` and decrypted through `rsa_decrypt_run` comes back (with the restrictions of
`C48_partial`), for every key pair that the two PEM texts denote. -/
theorem C64_entry_partial (pub priv : Bytes → Option Key) (L L' : Layout) (tpub tpriv : Bytes) (k kp : Key) (hpub : pub (cstr tpub) = some kp)
    (hpriv : priv (cstr tpriv) = some k) (hn1 : kp.n = k.n) (he1 : kp.e = k.e) (hk : Rsa.KeyPair k.n k.e k.d) (m : Bytes) (hm : m.length < k.size)
    (h0 : 0 ∉ m) (hn : toNum (m ++ List.replicate (k.size - m.length) 0) < k.n) :
    ∃ hex, opRun (encryptOp pub) L (twoArgs tpub m) = .ok (some (Value.print (.arr [.str hex]))) ∧ hex.length = 2 * k.size ∧
      opRun (decryptOp priv) L' (twoArgs tpriv hex) = .ok (some (Value.print (.arr [.str m]))) ∧
      opGas (encryptOp pub) L (twoArgs tpub m) = .ok (10 * k.size) ∧ opGas (decryptOp priv) L' (twoArgs tpriv hex) = .ok (10 * k.size) := by
  have hsz : kp.size = k.size := by simp [Key.size, hn1]
  have hrt := C48_partial k hk true m hm h0 hn
  have henc : pubEncrypt kp m = pubEncrypt k m := by simp only [pubEncrypt, encryptWith, rawEncrypt, hsz, hn1, he1]
  unfold roundTrip at hrt
  simp only [if_true] at hrt
  cases hc : pubEncrypt k m with
  | none => rw [hc] at hrt; cases hrt
  | some c =>
    rw [hc] at hrt
    dsimp only at hrt
    have hcl : c.length = k.size := by
      unfold pubEncrypt at hc
      rw [encryptWith_block, rawEncrypt] at hc
      split at hc
      · cases hc
      · split at hc
        · cases hc
        · cases hc; exact toBin_length _ _
    have h1 : (encryptOp pub).parse (encryptOp pub).init [.str tpub, .str m] = (⟨some kp, m⟩, .ok true) := by
      simp [encryptOp, Value.argAt, Value.toStr, hpub]
    have hh := (C47_bytes c).2
    have h2 : (decryptOp priv).parse (decryptOp priv).init [.str tpriv, .str (str2hex c)] = (⟨some k, c⟩, .ok true) := by
      simp [decryptOp, Value.argAt, Value.toStr, hpriv, hh]
    have hck1 := check_ok (H := encryptOp pub) (o := ⟨false, false, .arr [.str tpub, .str m], .arr [], (encryptOp pub).init, []⟩) rfl rfl h1
    have hck2 := check_ok (H := decryptOp priv) (o := ⟨false, false, .arr [.str tpriv, .str (str2hex c)], .arr [], (decryptOp priv).init, []⟩) rfl rfl h2
    refine ⟨str2hex c, ?_, by rw [str2hex_length, hcl], ?_, ?_, ?_⟩
    · rw [C64_encrypt, hpub]
      simp only [henc, hc]
    · have hr : (decryptOp priv).run ⟨some k, c⟩ [] = (⟨some k, c⟩, [.str m], .ok true) := by simp [decryptOp, hrt]
      obtain ⟨hs1, hf, _⟩ := shows_strs [m]
      exact C38_entry (decryptOp priv) L' _ _ (parse_two L' tpriv (str2hex c)) _ _ h2 [.str m] hr _ hs1 hf
    · simp only [opGas, construct_of (parse_two L tpub m), Res.ok_bind, copyTop, getGas, hck1]
      simp [encryptOp, hsz, Nat.mul_comm]
    · simp only [opGas, construct_of (parse_two L' tpriv (str2hex c)), Res.ok_bind, copyTop, getGas, hck2]
      simp [decryptOp, Nat.mul_comm]

/-- Any two PEM texts, the key above and the message `\x0c` meet the hypotheses. -/
example : ∃ (pub priv : Bytes → Option Key) (kp : Key), pub (cstr [80]) = some kp ∧ priv (cstr [81]) = some smallKey ∧ kp.n = smallKey.n ∧
    kp.e = smallKey.e ∧ ([12] : Bytes).length < smallKey.size ∧ 0 ∉ ([12] : Bytes) ∧
    toNum ([12] ++ List.replicate (smallKey.size - 1) 0) < smallKey.n :=
  ⟨fun _ => some ⟨3233, 17, 0⟩, fun _ => some smallKey, ⟨3233, 17, 0⟩, rfl, rfl, rfl, rfl, by decide, by decide, by decide⟩

/-- C64, the size of a key is the number of bytes of the modulus. -/
theorem C64_size (k : Key) (h : 0 < k.n) : 256 ^ (k.size - 1) ≤ k.n ∧ k.n < 256 ^ k.size := by
  have h1 : k.n < 2 ^ Nat.size k.n := Nat.lt_size_self k.n
  have h2 : 2 ^ (Nat.size k.n - 1) ≤ k.n := Nat.lt_size.mp (by have := Nat.size_pos.mpr h; omega)
  have e : ∀ m, (256 : Nat) ^ m = 2 ^ (8 * m) := fun m => by rw [Nat.pow_mul]
  rw [e, e]
  unfold Key.size
  exact ⟨Nat.le_trans (Nat.pow_le_pow_right (by omega) (by omega)) h2, Nat.lt_of_lt_of_le h1 (Nat.pow_le_pow_right (by omega) (by omega))⟩

example : (⟨3233, 17, 413⟩ : Key).size = 2 ∧ (⟨255, 3, 3⟩ : Key).size = 1 ∧ (⟨256, 3, 3⟩ : Key).size = 2 := by decide

end Eni.Props
