import Verif.Props.RsaWork
import Verif.Props.Gas
import Verif.Model.CryptoLimits
/-!
# C131: whoever is told a price gets a result
-/
namespace Eni.Props
open Spec Base Json

variable {S : Type}

/-- Whenever `OP_gas` returns another number than the one for rejected arguments, `OP_run` returns a text for the same arguments. -/
def Promised (H : Hooks S) : Prop := ∀ (L : Layout) (s : Bytes) (g : Nat), opGas H L s = .ok g → g ≠ 1500 → ∃ r, opRun H L s = .ok (some r)

/-- Where a price comes from. -/
theorem gas_from {H : Hooks S} {L : Layout} {s : Bytes} {g : Nat} (h : opGas H L s = .ok g) : (g = 1500 ∧ opRun H L s = .ok none) ∨
    ∃ args st, H.parse H.init args = (st, .ok true) ∧ H.gas st = .ok g ∧
      (∀ st' vs, H.run st [] = (st', vs, .ok true) → opRun H L s = .ok (some (cstr (Value.print (.arr vs))))) ∧
      ∀ st' vs, H.run st [] = (st', vs, .ok false) → opRun H L s = .ok none := by
  obtain ⟨o, h1, h2⟩ := Res.bind_eq_ok.mp h
  obtain ⟨root, hp, rfl⟩ := construct_ok h1
  simp only [opRun, h1, Res.ok_bind]
  cases ha : (copyTop root).toArray with
  | ok args =>
    cases hpar : H.parse H.init args with
    | mk st b =>
      cases b with
      | ok b =>
        have hc := check_ok (H := H) (o := ⟨false, false, copyTop root, .arr [], H.init, []⟩) rfl ha hpar
        cases b with
        | false =>
          simp only [getGas, hc, Res.ok.injEq] at h2
          exact .inl ⟨h2.symm, by simp only [start, hc]⟩
        | true =>
          simp only [getGas, hc] at h2
          refine .inr ⟨args, st, hpar, h2, fun st' vs hr => ?_, fun st' vs hr => ?_⟩ <;> simp only [start, hc, Value.toArray, hr]
      | _ =>
        simp only [getGas, check, ha, hpar, Bool.false_eq_true, if_false] at h2
        cases h2
  | _ =>
    simp only [getGas, check, ha, Bool.false_eq_true, if_false] at h2
    cases h2

/-- C131 holds of reverse. -/
theorem C131_reverse : Promised Reverse.op := by
  intro L s g h hg
  rcases gas_from h with ⟨h1, -⟩ | ⟨args, st, -, -, h3, -⟩
  · exact absurd h1 hg
  · exact ⟨_, h3 _ _ rfl⟩

/-- C131 holds of json, for every tokenizer. -/
theorem C131_json (E : JsonTool.Env) : Promised (JsonTool.op E) := by
  intro L s g h hg
  rcases gas_from h with ⟨h1, -⟩ | ⟨args, st, -, -, h3, -⟩
  · exact absurd h1 hg
  · exact ⟨_, h3 _ _ rfl⟩

/-- C131 holds of scrypt; here 1500 is never a price, so that a caller can tell from the number alone. -/
theorem C131_scrypt (A : Sha) (E : Scrypt.Env) : Promised (Scrypt.op A E) ∧
    ∀ L s, opGas (Scrypt.op A E) L s = .ok 1500 → opRun (Scrypt.op A E) L s = .ok none := by
  have acc : ∀ args st, (Scrypt.op A E).parse (Scrypt.op A E).init args = (st, .ok true) → HexArg st := by
    intro args st hp
    have hx : ∃ x more, args = .str x :: more := by
      cases args with
      | nil => cases hp
      | cons v vs => cases v <;> first | exact ⟨_, _, rfl⟩ | cases hp
    obtain ⟨x, more, rfl⟩ := hx
    obtain ⟨b, h1, h2⟩ := C43_accepts A E (Scrypt.op A E).init x more
    rw [h1] at hp
    cases hp
    exact h2.mp rfl
  constructor
  · intro L s g h hg
    rcases gas_from h with ⟨h1, -⟩ | ⟨args, st, hp, -, h3, -⟩
    · exact absurd h1 hg
    · obtain ⟨d, t, -, -, -, hr⟩ := C43_run A E st (acc args st hp) []
      exact ⟨_, h3 _ _ hr⟩
  · intro L s h
    rcases gas_from h with ⟨-, h1⟩ | ⟨args, st, hp, hg, -, -⟩
    · exact h1
    · have hl := (acc args st hp).1
      have h4 : (st.length + 1) / 2 * 10 = 1500 := Res.ok.inj hg
      omega

theorem toNum_full (len : Nat) : Crypto.toNum (List.replicate len 255) = 256 ^ len - 1 := by
  induction len with
  | zero => rfl
  | succ n ih =>
    rw [List.replicate_succ', Crypto.toNum_snoc, ih]
    have : 0 < 256 ^ n := Nat.pow_pos (by decide)
    have e : 256 ^ (n + 1) = 256 * 256 ^ n := by ring
    rw [e]
    show 256 * (256 ^ n - 1) + 255 = _
    omega

/-- No block of bytes 255 is below the modulus. -/
theorem full_block (k : Crypto.Key) : k.n ≤ Crypto.toNum (List.replicate k.size 255) := by
  rw [toNum_full]
  have := Crypto.lt_size k
  omega

/-- C131 is false of rsa_encrypt, for every key of any size: the message of bytes 255 has a price, but no result. -/
theorem C131_encrypt_false (pem : Bytes → Option Crypto.Key) (L : Layout) (t : Bytes) (k : Crypto.Key) (hk : pem (cstr t) = some k) :
    opGas (Crypto.encryptOp pem) L (twoArgs t (List.replicate k.size 255)) = .ok (10 * k.size) ∧
    opRun (Crypto.encryptOp pem) L (twoArgs t (List.replicate k.size 255)) = .ok none := by
  refine ⟨(C129_price pem L t _ k hk).1, ?_⟩
  rw [C64_encrypt, hk]
  have : Crypto.pubEncrypt k (List.replicate k.size 255) = none := by
    have := full_block k
    simp [Crypto.pubEncrypt, Crypto.encryptWith, Crypto.rawEncrypt, this]
  simp only [this]

/-- C131 for rsa_encrypt, exactly: there is a result exactly if the message, filled up or cut, is a number below the modulus. -/
theorem C131_encrypt_partial (pem : Bytes → Option Crypto.Key) (L : Layout) (t m : Bytes) (k : Crypto.Key) (hk : pem (cstr t) = some k) :
    (∃ r, opRun (Crypto.encryptOp pem) L (twoArgs t m) = .ok (some r)) ↔ Crypto.toNum (m.take k.size ++ List.replicate (k.size - m.length) 0) < k.n := by
  have hb : Crypto.pubEncrypt k m = Crypto.rawEncrypt k k.e (m.take k.size ++ List.replicate (k.size - m.length) 0) := by
    rw [Crypto.pubEncrypt, Crypto.encryptWith_block]; rfl
  have hl : (m.take k.size ++ List.replicate (k.size - m.length) (0 : UInt8)).length = k.size := by
    simp only [List.length_append, List.length_take, List.length_replicate]; omega
  rw [C64_encrypt, hk]
  simp only [hb, Crypto.rawEncrypt, hl, ne_eq, not_true_eq_false, if_false]
  by_cases h : Crypto.toNum (m.take k.size ++ List.replicate (k.size - m.length) 0) < k.n
  · rw [if_neg (by omega)]
    exact ⟨fun _ => h, fun _ => ⟨_, rfl⟩⟩
  · rw [if_pos (by omega)]
    exact ⟨fun ⟨r, hr⟩ => absurd hr (by simp), fun h' => absurd h' h⟩

/-- C131: with a modulus of 150 bytes the number that stands for rejected arguments is a price. The same number is returned for a key that cannot be read. -/
theorem C131_1500_false (pem : Bytes → Option Crypto.Key) (L : Layout) (t t' m : Bytes) (k : Crypto.Key) (hk : pem (cstr t) = some k) (hs : k.size = 150)
    (hm : Crypto.toNum (m.take k.size ++ List.replicate (k.size - m.length) 0) < k.n) (hk' : pem (cstr t') = none) :
    opGas (Crypto.encryptOp pem) L (twoArgs t m) = .ok 1500 ∧ (∃ r, opRun (Crypto.encryptOp pem) L (twoArgs t m) = .ok (some r)) ∧
    opGas (Crypto.encryptOp pem) L (twoArgs t' m) = .ok 1500 ∧ opRun (Crypto.encryptOp pem) L (twoArgs t' m) = .ok none := by
  refine ⟨by rw [(C129_price pem L t m k hk).1, hs], (C131_encrypt_partial pem L t m k hk).mpr hm, ?_, by rw [C64_encrypt, hk']⟩
  have h1 : (Crypto.encryptOp pem).parse (Crypto.encryptOp pem).init [.str t', .str m] = (⟨none, []⟩, .ok false) := by
    simp [Crypto.encryptOp, Value.argAt, Value.toStr, hk']
  have hck := check_ok (H := Crypto.encryptOp pem) (o := ⟨false, false, .arr [.str t', .str m], .arr [], (Crypto.encryptOp pem).init, []⟩) rfl rfl h1
  simp only [opGas, construct_of (parse_two L t' m), Res.ok_bind, copyTop, getGas, hck]

/-- C131 for rsa_decrypt, exactly: whatever the key and the ciphertext `c`, there is a result if the ciphertext is not too long, a number below the modulus and the
decrypted block contains a NUL; without NUL the program reads behind its buffer. -/
theorem C131_decrypt_partial (pem : Bytes → Option Crypto.Key) (L : Layout) (t m c : Bytes) (k : Crypto.Key) (hk : pem (cstr t) = some k)
    (hc : Crypto.hex2str m = .ok (some c)) :
    opRun (Crypto.decryptOp pem) L (twoArgs t m) =
      if k.size < c.length ∨ k.n ≤ Crypto.toNum c then .ok none
      else if 0 ∈ Crypto.toBin k.size (Crypto.toNum c ^ k.d % k.n) then
        .ok (some (Value.print (.arr [.str (cstr (Crypto.toBin k.size (Crypto.toNum c ^ k.d % k.n)))])))
      else .ub .outOfBounds := by
  have h1 : (Crypto.decryptOp pem).parse (Crypto.decryptOp pem).init [.str t, .str m] = (⟨some k, c⟩, .ok true) := by
    simp [Crypto.decryptOp, Value.argAt, Value.toStr, hk, hc]
  have hck := check_ok (H := Crypto.decryptOp pem) (o := ⟨false, false, .arr [.str t, .str m], .arr [], (Crypto.decryptOp pem).init, []⟩) rfl rfl h1
  by_cases ha : k.size < c.length ∨ k.n ≤ Crypto.toNum c
  · rw [if_pos ha]
    have hd : Crypto.privDecrypt k c = .ok none := by
      rcases ha with ha | ha <;> simp [Crypto.privDecrypt, Crypto.decryptWith, Crypto.rawDecrypt, ha]
    have hr : (Crypto.decryptOp pem).run ⟨some k, c⟩ [] = (⟨some k, c⟩, [], .ok false) := by simp [Crypto.decryptOp, hd]
    simp only [opRun, construct_of (parse_two L t m), Res.ok_bind, copyTop, start, hck, Value.toArray, hr]
  · rw [if_neg ha]
    have hraw : Crypto.rawDecrypt k k.d c = some (Crypto.toBin k.size (Crypto.toNum c ^ k.d % k.n)) := by
      rw [Crypto.rawDecrypt, if_neg (by omega), if_neg (by omega)]
    by_cases hz : 0 ∈ Crypto.toBin k.size (Crypto.toNum c ^ k.d % k.n)
    · rw [if_pos hz]
      have hd : Crypto.privDecrypt k c = .ok (some (cstr (Crypto.toBin k.size (Crypto.toNum c ^ k.d % k.n)))) := by
        simp only [Crypto.privDecrypt, Crypto.decryptWith, hraw, if_pos hz]
      have hr : (Crypto.decryptOp pem).run ⟨some k, c⟩ [] =
          (⟨some k, c⟩, [.str (cstr (Crypto.toBin k.size (Crypto.toNum c ^ k.d % k.n)))], .ok true) := by simp [Crypto.decryptOp, hd]
      obtain ⟨hs1, hf, _⟩ := shows_strs [cstr (Crypto.toBin k.size (Crypto.toNum c ^ k.d % k.n))]
      exact C38_entry (Crypto.decryptOp pem) L _ _ (parse_two L t m) _ _ h1 _ hr _ hs1 hf
    · rw [if_neg hz]
      have hd : Crypto.privDecrypt k c = .ub .outOfBounds := by
        simp only [Crypto.privDecrypt, Crypto.decryptWith, hraw, if_neg hz]
      have hr : ((Crypto.decryptOp pem).run ⟨some k, c⟩ []).2.2 = .ub .outOfBounds := by simp [Crypto.decryptOp, hd, Crypto.fail]
      simp only [opRun, construct_of (parse_two L t m), Res.ok_bind, copyTop, start, hck, Value.toArray, hr]

/-- C131 is false of rsa_decrypt, for every key: the ciphertext of digits f has a price, but no result. -/
theorem C131_decrypt_false (pem : Bytes → Option Crypto.Key) (L : Layout) (t : Bytes) (k : Crypto.Key) (hk : pem (cstr t) = some k) :
    opGas (Crypto.decryptOp pem) L (twoArgs t (Crypto.str2hex (List.replicate k.size 255))) = .ok (10 * k.size) ∧
    opRun (Crypto.decryptOp pem) L (twoArgs t (Crypto.str2hex (List.replicate k.size 255))) = .ok none := by
  have hh := (C47_bytes (List.replicate k.size 255)).2
  have hg := (C129_price pem L t _ k hk).2 _ hh
  refine ⟨hg, ?_⟩
  have h1 : (Crypto.decryptOp pem).parse (Crypto.decryptOp pem).init [.str t, .str (Crypto.str2hex (List.replicate k.size 255))] =
      (⟨some k, List.replicate k.size 255⟩, .ok true) := by
    simp [Crypto.decryptOp, Value.argAt, Value.toStr, hk, hh]
  have hd : Crypto.privDecrypt k (List.replicate k.size 255) = .ok none := by
    have := full_block k
    simp [Crypto.privDecrypt, Crypto.decryptWith, Crypto.rawDecrypt, this]
  have hr : (Crypto.decryptOp pem).run ⟨some k, List.replicate k.size 255⟩ [] = (⟨some k, List.replicate k.size 255⟩, [], .ok false) := by
    simp [Crypto.decryptOp, hd]
  have hck := check_ok (H := Crypto.decryptOp pem) (o := ⟨false, false, .arr [.str t, .str (Crypto.str2hex (List.replicate k.size 255))], .arr [],
    (Crypto.decryptOp pem).init, []⟩) rfl rfl h1
  simp only [opRun, construct_of (parse_two L t _), Res.ok_bind, copyTop, start, hck, Value.toArray, hr]

/-- So neither keeps what it promises, whatever the notation of keys, as soon as some key can be read whose size is not 150 bytes. -/
theorem C131_rsa_false (pem : Bytes → Option Crypto.Key) (t : Bytes) (k : Crypto.Key) (hk : pem (cstr t) = some k) (hs : k.size ≠ 150) :
    ¬ Promised (Crypto.encryptOp pem) ∧ ¬ Promised (Crypto.decryptOp pem) := by
  constructor
  · intro h
    obtain ⟨h1, h2⟩ := C131_encrypt_false pem ⟨0, 0, 0⟩ t k hk
    obtain ⟨r, hr⟩ := h _ _ _ h1 (by omega)
    rw [h2] at hr
    cases hr
  · intro h
    obtain ⟨h1, h2⟩ := C131_decrypt_false pem ⟨0, 0, 0⟩ t k hk
    obtain ⟨r, hr⟩ := h _ _ _ h1 (by omega)
    rw [h2] at hr
    cases hr

example := C131_rsa_false (fun _ => some smallKey) [80] smallKey rfl (by decide)
example (L : Layout) := C131_reverse L (Value.print (.arr [.str [97, 10]])) 20 (by
  obtain ⟨ht, h0⟩ := print_strs [[97, 10]]
  simpa using (C42_reverse L (w := []) (r := []) [97, 10] [] (by simp [WS]) ht (by simpa using h0)).2) (by decide)
example (L : Layout) := C131_decrypt_partial (fun _ => some smallKey) L [80] [48, 99] [12] smallKey rfl (by decide)
example (L : Layout) := C131_encrypt_false (fun _ => some smallKey) L [80] smallKey rfl
example (L : Layout) := C131_decrypt_false (fun _ => some smallKey) L [80] smallKey rfl
example (L : Layout) := (C131_encrypt_partial (fun _ => some smallKey) L [80] [12] smallKey rfl).mpr (by decide)
example (L : Layout) := C131_1500_false (fun t => if t = [80] then some ⟨2 ^ 1199, 3, 0⟩ else none) L [80] [81] [] ⟨2 ^ 1199, 3, 0⟩ rfl
  (by simp only [Crypto.Key.size, Nat.size_pow]) (by simp only [Crypto.Key.size, Nat.size_pow]; decide +kernel) rfl

/-! ### Keys that openssl refuses -/

/-- Prices do not depend on what openssl refuses. With a key that it refuses there is no result for any message, and otherwise the result is the one
that the other theorems are about. -/
theorem C131_limits (refuse : Crypto.Key → Bool) (pem : Bytes → Option Crypto.Key) (L : Layout) (t m : Bytes) (k : Crypto.Key) (hk : pem (cstr t) = some k) :
    opGas (Crypto.encryptOpLim refuse pem) L (twoArgs t m) = .ok (10 * k.size) ∧
    opRun (Crypto.encryptOpLim refuse pem) L (twoArgs t m) = (if refuse k then .ok none else opRun (Crypto.encryptOp pem) L (twoArgs t m)) ∧
    ∀ c, Crypto.hex2str m = .ok (some c) → opGas (Crypto.decryptOpLim refuse pem) L (twoArgs t m) = .ok (10 * k.size) ∧
      opRun (Crypto.decryptOpLim refuse pem) L (twoArgs t m) = (if refuse k then .ok none else opRun (Crypto.decryptOp pem) L (twoArgs t m)) := by
  refine ⟨(C129_price pem L t m k hk).1, ?_, fun c hc => ⟨(C129_price pem L t m k hk).2 c hc, ?_⟩⟩
  · have h1 : (Crypto.encryptOp pem).parse (Crypto.encryptOp pem).init [.str t, .str m] = (⟨some k, m⟩, .ok true) := by
      simp [Crypto.encryptOp, Value.argAt, Value.toStr, hk]
    have hck := check_ok (H := Crypto.encryptOp pem) (o := ⟨false, false, .arr [.str t, .str m], .arr [], (Crypto.encryptOp pem).init, []⟩) rfl rfl h1
    have hck' := check_ok (H := Crypto.encryptOpLim refuse pem) (o := ⟨false, false, .arr [.str t, .str m], .arr [], (Crypto.encryptOp pem).init, []⟩) rfl rfl h1
    have hi : (Crypto.encryptOpLim refuse pem).init = (Crypto.encryptOp pem).init := rfl
    simp only [opRun, construct_of (parse_two L t m), Res.ok_bind, copyTop, start, hi, hck, hck', Value.toArray]
    by_cases hr : refuse k = true
    · simp only [Crypto.encryptOpLim, hr, if_true]
    · simp only [Crypto.encryptOpLim, hr, if_false, Bool.false_eq_true]
  · have h1 : (Crypto.decryptOp pem).parse (Crypto.decryptOp pem).init [.str t, .str m] = (⟨some k, c⟩, .ok true) := by
      simp [Crypto.decryptOp, Value.argAt, Value.toStr, hk, hc]
    have hck := check_ok (H := Crypto.decryptOp pem) (o := ⟨false, false, .arr [.str t, .str m], .arr [], (Crypto.decryptOp pem).init, []⟩) rfl rfl h1
    have hck' := check_ok (H := Crypto.decryptOpLim refuse pem) (o := ⟨false, false, .arr [.str t, .str m], .arr [], (Crypto.decryptOp pem).init, []⟩) rfl rfl h1
    have hi : (Crypto.decryptOpLim refuse pem).init = (Crypto.decryptOp pem).init := rfl
    simp only [opRun, construct_of (parse_two L t m), Res.ok_bind, copyTop, start, hi, hck, hck', Value.toArray]
    by_cases hr : refuse k = true
    · simp only [Crypto.decryptOpLim, hr, if_true]
    · simp only [Crypto.decryptOpLim, hr, if_false, Bool.false_eq_true]

example (L : Layout) := C131_limits (fun k => decide (k.n ≤ k.e)) (fun _ => some smallKey) L [80] [48, 99] smallKey rfl

end Eni.Props
