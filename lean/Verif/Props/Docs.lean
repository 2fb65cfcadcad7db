import Verif.Props.Tools
/-!
# C108: the prices in the documentation

docs/testing-prebuilt-eni-operations.rst 18-59 shows what the tools print for the shipped operations: the price of `reverse` is the length of its string,
of `scrypt` the number of hexadecimal digits, of `rsa_encrypt` the length of the message and of `rsa_decrypt` the size of the key in bytes
(the guide to `reverse`, docs/guides/implement-eni-operations.rst 86-103, says the same in words).
-/
namespace Eni.Props
open Spec Base Json Cli

theorem natText_ne {a b : Bytes} {n m : Nat} (ha : NatText a n) (hb : NatText b m) (h : n ≠ m) : a ≠ b := by
  rintro rfl
  exact h (ha.2.2.2.trans hb.2.2.2.symm)

theorem hexDecode_length : ∀ {s d : Bytes}, Hex.decode s = some d → s.length = 2 * d.length
  | [], d, h => by
    cases h
    rfl
  | [_], d, h => by cases h
  | a :: b :: r, d, h => by
    unfold Hex.decode at h
    split at h
    · rename_i x y t _ _ ht
      cases h
      have := hexDecode_length ht
      simp
      omega
    · cases h

/-- C108, what the documentation says of `eni_run reverse` is true, and what it says of `eni_gas` is true of the empty string. -/
theorem C108_run_partial (L : Layout) (lib name s : Bytes) (args : List Bytes) (ha : positional args = [lib, name, Value.print (.arr [.str s])]) :
    runMain (oneLib lib name Reverse.op L) args = .ok ⟨Value.print (.arr [.str s.reverse]) ++ [10], [], 0⟩ ∧
    (s = [] → ∀ t, NatText t s.length → gasMain (oneLib lib name Reverse.op L) args = .ok ⟨t ++ [10], [], 0⟩) := by
  obtain ⟨h1, h2⟩ := C66_reverse L lib name s args ha
  refine ⟨h1, ?_⟩
  rintro rfl t ht
  exact h2 t ht

/-- C108 is false of `reverse`: for no string but the empty one does `eni_gas` print the length; it prints ten times the length. -/
theorem C108_reverse_false (L : Layout) (lib name s : Bytes) (hs : s ≠ []) (args : List Bytes) (ha : positional args = [lib, name, Value.print (.arr [.str s])])
    (t : Bytes) (ht : NatText t s.length) : gasMain (oneLib lib name Reverse.op L) args ≠ .ok ⟨t ++ [10], [], 0⟩ := by
  rw [(C66_reverse L lib name s args ha).2 _ (natDec_text _)]
  have := natText_ne (natDec_text (10 * s.length)) ht (by have := List.length_pos_iff.mpr hs; omega)
  simpa using this

/-- C108 is false of `scrypt`: for no valid argument but the empty one is the price the number of digits. -/
theorem C108_scrypt_false (A : Sha) (E : Scrypt.Env) (L : Layout) (lib name s : Bytes) (hs : HexArg s) (hn : s ≠ []) (args : List Bytes)
    (ha : positional args = [lib, name, Value.print (.arr [.str s])]) (t : Bytes) (ht : NatText t s.length) :
    gasMain (oneLib lib name (Scrypt.op A E) L) args ≠ .ok ⟨t ++ [10], [], 0⟩ := by
  obtain ⟨d, x, hd, _, _, hg⟩ := C89_scrypt A E L lib name s hs args ha
  rw [hg _ (natDec_text _)]
  have hlen : s.length ≤ 2 * d.length := by
    rcases hd with h | h
    · have := hexDecode_length h
      omega
    · have := hexDecode_length h
      rw [List.length_cons] at this
      omega
  have := natText_ne (natDec_text (10 * d.length)) ht (by have := List.length_pos_iff.mpr hn; omega)
  simpa using this

/-- C108 is false of the RSA operations: with a key pair and a message that fits, the price of encryption is never the length of the message, and the price of
decryption is never the size of the key. -/
theorem C108_rsa_false (pub priv : Bytes → Option Crypto.Key) (L L' : Layout) (lib name name' : Bytes) (tpub tpriv : Bytes) (k kp : Crypto.Key)
    (hpub : pub (cstr tpub) = some kp) (hpriv : priv (cstr tpriv) = some k) (hn1 : kp.n = k.n) (he1 : kp.e = k.e) (hk : Rsa.KeyPair k.n k.e k.d)
    (m : Bytes) (hm : m.length < k.size) (h0 : 0 ∉ m) (hn : Crypto.toNum (m ++ List.replicate (k.size - m.length) 0) < k.n) :
    (∀ args, positional args = [lib, name, Value.print (.arr [.str tpub, .str m])] → ∀ t, NatText t m.length →
      gasMain (oneLib lib name (Crypto.encryptOp pub) L) args ≠ .ok ⟨t ++ [10], [], 0⟩) ∧
    ∃ hex, ∀ args, positional args = [lib, name', Value.print (.arr [.str tpriv, .str hex])] → ∀ t, NatText t k.size →
      gasMain (oneLib lib name' (Crypto.decryptOp priv) L') args ≠ .ok ⟨t ++ [10], [], 0⟩ ∧
      runMain (oneLib lib name' (Crypto.decryptOp priv) L') args = .ok ⟨Value.print (.arr [.str m]) ++ [10], [], 0⟩ := by
  obtain ⟨hex, _, h1, h2⟩ := C89_rsa_partial pub priv L L' lib name name' tpub tpriv k kp hpub hpriv hn1 he1 hk m hm h0 hn
  refine ⟨fun args ha t ht => ?_, hex, fun args ha t ht => ⟨?_, (h2 args ha).1⟩⟩
  · rw [(h1 args ha).2 _ (natDec_text _)]
    have := natText_ne (natDec_text (10 * k.size)) ht (by omega)
    simpa using this
  · rw [(h2 args ha).2 _ (natDec_text _)]
    have := natText_ne (natDec_text (10 * k.size)) ht (by omega)
    simpa using this

/-- C108, the test program of docs/guides/test-eni-operations.rst 20-25 (an object of class `Reverse`, then `getGas`, then `start`), for every text of an array with one
string: the price is ten per byte and the result is the reversed string. -/
theorem C108_guide_partial (L : Layout) (s t : Bytes) (ht : JText t (.arr [.str s])) (h0 : (0 : UInt8) ∉ t) : ∃ o, construct Reverse.op L t = .ok o ∧
    (getGas Reverse.op o).2 = .ok (10 * s.length) ∧ (start Reverse.op (getGas Reverse.op o).1).2 = .ok (some (Value.print (.arr [.str s.reverse]))) := by
  have hp := parse_strs L (w := []) (r := []) [s] (by simp [WS]) ht (by simpa using h0)
  simp only [List.nil_append, List.append_nil, List.map_cons, List.map_nil] at hp
  rw [cstr_of_notMem h0] at hp
  have hc : cstr (Value.print (.arr [.str s.reverse])) = Value.print (.arr [.str s.reverse]) := cstr_of_notMem (print_strs [s.reverse]).2
  refine ⟨_, construct_of hp, ?_, ?_⟩
  · simp [getGas, check, copyTop, Value.toArray, Reverse.op, Value.argAt, Value.toStr, Nat.mul_comm]
  · simp [getGas, start, check, copyTop, Value.toArray, Reverse.op, Value.argAt, Value.toStr, hc]

/-- C108 is false of that program: with the documented argument both of its expectations fail. The price is 110, not 12, and the result has no exclamation mark. -/
theorem C108_guide_false (L : Layout) : ∃ o r, construct Reverse.op L "[\"Hello World\"]".toUTF8.toList = .ok o ∧
    (getGas Reverse.op o).2 = .ok 110 ∧ (start Reverse.op (getGas Reverse.op o).1).2 = .ok (some r) ∧ r ≠ "[\"!dlroW olleH\"]".toUTF8.toList := by
  obtain ⟨ht, h0⟩ := print_strs ["Hello World".toUTF8.toList]
  have e : Value.print (.arr (["Hello World".toUTF8.toList].map .str)) = "[\"Hello World\"]".toUTF8.toList := by decide +kernel
  rw [e] at ht h0
  obtain ⟨o, h1, h2, h3⟩ := C108_guide_partial L _ _ ht h0
  have hl : 10 * "Hello World".toUTF8.toList.length = 110 := by decide +kernel
  exact ⟨o, _, h1, hl ▸ h2, h3, by decide +kernel⟩

/-- the documented call `eni_gas lib reverse '["Hello World!"]'` prints 120, not 12 -/
example (L : Layout) : gasMain (oneLib [108] [114] Reverse.op L) [[108], [114], Value.print (.arr [.str "Hello World!".toUTF8.toList])] = .ok ⟨[49, 50, 48, 10], [], 0⟩ := by
  have h := (C66_reverse L [108] [114] "Hello World!".toUTF8.toList [[108], [114], Value.print (.arr [.str "Hello World!".toUTF8.toList])] (by decide +kernel)).2 _ (natDec_text _)
  rw [h]
  decide +kernel

/-- `eni_gas lib scrypt '["00"]'`: a valid argument -/
example : HexArg [48, 48] := ⟨by decide, by
  simp only [List.mem_cons, List.not_mem_nil, or_false]
  rintro c (rfl | rfl) <;> exact ⟨0, rfl⟩⟩

end Eni.Props
