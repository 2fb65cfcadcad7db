import Verif.Proofs.ScryptWorkIter
import Verif.Props.Gas
/-!
# Properties of the work of the scrypt operation: C124
-/
namespace Eni.Props
open Spec Base Json Scrypt

variable (A : Sha)

/-- What every accepted call does: 4096 calls of `xor_salsa8`, 804 bytes and 12 results of SHA-256, 32768 words written to the scratchpad and 32768 words read
from it. -/
def fullWork : Work := ⟨4096, 804, 12, 32768, 32768⟩

/-- C124, the hash function itself: for every input, counting changes nothing about the result, and the work depends on the length of the input only - not on
its bytes, the hash function, the address or content of the scratchpad. A key of more than 64 bytes is hashed first, twice. -/
theorem C124_core (input output B : Bytes) (X : List UInt32) (p : Pad) (hp : p.size = padSize) (ho : output.length = 32)
    (hB : B.length = 128) (hX : X.length = 32) :
    ∃ h n, core A input output B X p = .ok h ∧ coreW A input output B X p ⟨0, 0, 0, 0, 0⟩ = .ok (h, n) ∧
      n = if input.length ≤ 64 then ⟨4096, input.length + 564, 10, 32768, 32768⟩ else ⟨4096, 3 * input.length + 564, 12, 32768, 32768⟩ := by
  refine ⟨_, _, core_spec A input output B X p (p.big hp) ho hB hX, coreW_spec A input output B X p (p.big hp) ho hB hX _, ?_⟩
  by_cases h : input.length ≤ 64
  · rw [if_pos h, initCost, if_neg (by omega)]
    simp only [Work.add_def, Work.mk.injEq]
    refine ⟨?_, ?_, ?_, ?_, ?_⟩ <;> (try simp only []) <;> omega
  · rw [if_neg h, initCost, if_pos (by omega)]
    simp only [Work.add_def, Work.mk.injEq]
    refine ⟨?_, ?_, ?_, ?_, ?_⟩ <;> (try simp only []) <;> omega

/-- C124, PBKDF2 for any number of iterations: the work depends on the lengths and the number only. One block is one HMAC of the salt and the index and
c - 1 HMACs of 32 bytes, each with the key processed anew. -/
theorem C124_pbkdf2 (P S buf : Bytes) (c dkLen : Nat) (h1 : 1 ≤ c) (hc : c < 2 ^ 64 - 1) (hd : dkLen ≤ 32 * (2 ^ 32 - 1)) (hb : dkLen ≤ buf.length) :
    ∃ b, Scrypt.pbkdf2 A P S c buf dkLen = .ok b ∧ pbkdf2W A P S c buf dkLen ⟨0, 0, 0, 0, 0⟩ = .ok (b,
      let blocks := (dkLen + 31) / 32
      if P.length ≤ 64 then ⟨0, 128 + S.length + blocks * (36 + (c - 1) * 192), blocks * (2 * c), 0, 0⟩
      else ⟨0, P.length + 128 + S.length + blocks * (36 + (c - 1) * (P.length + 192)), 1 + blocks * (2 + (c - 1) * 3), 0, 0⟩) := by
  refine ⟨_, pbkdf2_spec A P S c dkLen buf hc hd hb, ?_⟩
  rw [pbkdf2W_all, pbkdf2_spec A P S c dkLen buf hc hd hb, Res.ok_bind]
  congr 2
  have e : 2 + (c - 1) * 2 = 2 * c := by omega
  by_cases h : P.length ≤ 64
  · simp only [if_pos h, initCost, if_neg (Nat.not_lt.mpr h), blockCostN, iterCost, blockCost, Work.times, Work.add_def, Work.mk.injEq, Nat.mul_zero, Nat.zero_add,
      Nat.add_zero, true_and, and_true, e]
  · simp only [if_neg h, initCost, if_pos (Nat.lt_of_not_le h), blockCostN, iterCost, blockCost, Work.times, Work.add_def, Work.mk.injEq, Nat.mul_zero, Nat.zero_add,
      Nat.add_zero, true_and, and_true, Nat.add_assoc]

/-- RFC 7914 asks for PBKDF2 with one iteration, RFC 6070 has test vectors for 4096. -/
example := C124_pbkdf2 A [112] [115] (List.replicate 64 0) 4096 40 (by decide) (by decide) (by decide) (by decide +kernel)

/-- C124, the operation: whatever the accepted string, the work is the same. The hash whose work is counted is the one that `run` prints. -/
theorem C124_work (E : Env) (s : Bytes) (h : HexArg s) (ret : List Value) :
    ∃ b, runW A E s = .ok (b, fullWork) ∧ ∃ t, Hex.Encodes b t ∧ ((op A E).run s ret).2 = (ret ++ [.str t], .ok true) := by
  obtain ⟨d, hd, hl⟩ := hexArg_denotes h
  have hl' : d.length ≤ 80 := by have := h.1; omega
  obtain ⟨b, n, e1, e2, hn⟩ := C124_core A (d ++ List.replicate (80 - d.length) 0) E.hash E.B E.X E.pad E.hpad E.hhash E.hB E.hX
  have h80 : (d ++ List.replicate (80 - d.length) (0 : UInt8)).length = 80 := by
    rw [List.length_append, List.length_replicate]
    omega
  rw [h80] at hn
  refine ⟨b, ?_, hexOut b, hexOut_encodes b, ?_⟩
  · simp only [runW, unhex_spec hd 80 hl', Res.ok_bind, e2, hn]
    rfl
  · simp only [op, unhex_spec hd 80 hl', Res.ok_bind, e1]

example (E : Env) := C124_work A E [48, 70, 102] hexArg_0Ff.1 []

theorem hexArg_zeros (n : Nat) (h : n ≤ 160) : HexArg (List.replicate n 48) := by
  refine ⟨by simpa using h, fun c hc => ?_⟩
  rw [List.mem_replicate] at hc
  rw [hc.2]
  exact ⟨0, rfl⟩

/-- C124 is false: every price from 0 to 800 in steps of ten is asked for the same work, from the entry points. In particular no positive number of gas per
call of `xor_salsa8` is covered. -/
theorem C124_price_false (E : Env) (L : Layout) (k : Nat) (hk : k ≤ 80) :
    ∃ s t b r, HexArg s ∧ JText t (.arr [.str s]) ∧ opGas (op A E) L t = .ok (10 * k) ∧ opRun (op A E) L t = .ok (some r) ∧ runW A E s = .ok (b, fullWork) := by
  have hs := hexArg_zeros (2 * k) (by omega)
  obtain ⟨ht, h0⟩ := print_strs [List.replicate (2 * k) 48]
  obtain ⟨d, x, hd, -, h1, h2⟩ := C44_entry A E L (w := []) (r := []) (List.replicate (2 * k) 48) [] hs (by simp [WS]) ht (by simpa using h0)
  obtain ⟨b, hb, -⟩ := C124_work A E _ hs []
  have hlen : d.length = k := by
    rw [denotes_iff] at hd
    have := decode_length hd
    rw [List.length_replicate, if_neg (by omega), List.length_replicate] at this
    omega
  rw [hlen] at h2
  exact ⟨_, _, b, _, hs, ht, by simpa using h2, by simpa using h1, hb⟩

example (E : Env) (L : Layout) := C124_price_false A E L 0 (by decide)
example (E : Env) (L : Layout) := C124_price_false A E L 80 (by decide)

/-- What holds of the price: it never exceeds 800 for the 4096 calls. -/
theorem C124_bound_partial (E : Env) (s : Bytes) (h : HexArg s) : ∃ g b w, (op A E).gas s = .ok g ∧ runW A E s = .ok (b, w) ∧ 5 * g < w.salsa := by
  obtain ⟨b, hb, -⟩ := C124_work A E s h []
  have hl := h.1
  refine ⟨_, b, _, rfl, hb, ?_⟩
  show 5 * ((s.length + 1) / 2 * 10) < 4096
  omega

example (E : Env) := C124_bound_partial A E [48, 70, 102] hexArg_0Ff.1

end Eni.Props
