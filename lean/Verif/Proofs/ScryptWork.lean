import Verif.Model.ScryptWork
import Verif.Proofs.ScryptOp
/-!
# The functions that count do the same, and their counts
-/
namespace Eni
namespace Scrypt
open Spec.Rfc

instance : Add Work := ⟨fun a b => ⟨a.salsa + b.salsa, a.bytes + b.bytes, a.finals + b.finals, a.stores + b.stores, a.loads + b.loads⟩⟩

theorem Work.add_def (a b : Work) :
    a + b = ⟨a.salsa + b.salsa, a.bytes + b.bytes, a.finals + b.finals, a.stores + b.stores, a.loads + b.loads⟩ := rfl

theorem Work.add_assoc (a b c : Work) : a + b + c = a + (b + c) := by
  simp only [Work.add_def, Nat.add_assoc]

/-- `n` times the same work -/
def Work.times (n : Nat) (c : Work) : Work := ⟨n * c.salsa, n * c.bytes, n * c.finals, n * c.stores, n * c.loads⟩

theorem Work.add_zero (a : Work) : a + Work.times 0 c = a := by
  simp [Work.add_def, Work.times]

theorem Work.add_times (a c : Work) (n : Nat) : a + Work.times n c + c = a + Work.times (n + 1) c := by
  rw [Work.add_assoc]
  congr 1
  simp only [Work.add_def, Work.times, Nat.succ_mul]

theorem forLoop_work {σ : Type} (c : Work) (n : Nat) (body : Nat → σ → Res σ) (bodyW : Nat → σ × Work → Res (σ × Work))
    (h : ∀ i s w, bodyW i (s, w) = body i s >>= fun s' => .ok (s', w + c)) (s : σ) (w : Work) :
    forLoop n bodyW (s, w) = forLoop n body s >>= fun s' => .ok (s', w + Work.times n c) := by
  induction n with
  | zero =>
    rw [Work.add_zero]
    rfl
  | succ n ih =>
    rw [forLoop_succ, forLoop_succ, ih]
    simp only [bind_assoc, Res.ok_bind, h, Work.add_times]

variable (A : Sha)

/-- the work of `HMAC_SHA256_Init` with a key of `n` bytes -/
def initCost (n : Nat) : Work := if n > 64 then ⟨0, n + 128, 1, 0, 0⟩ else ⟨0, 128, 0, 0, 0⟩

theorem padded_length (c : UInt8) (K : Bytes) (hK : K.length ≤ 64) : ∃ b, padded c K = .ok b ∧ b.length = 64 := by
  refine ⟨_, padded_spec c K hK, ?_⟩
  simp [xorB]
  omega

theorem hmacInitW_eq (K : Bytes) (w : Work) : hmacInitW A K w = hmacInit A K >>= fun c => .ok (c, w + initCost K.length) := by
  unfold hmacInitW hmacInit initCost
  by_cases h : K.length > 64
  · simp only [if_pos h, digest_one]
    have hl : (A.digest K).length ≤ 64 := by rw [A.len]; omega
    obtain ⟨b1, e1, l1⟩ := padded_length 0x36 _ hl
    obtain ⟨b2, e2, l2⟩ := padded_length 0x5c _ hl
    simp only [e1, e2, Res.ok_bind, Work.update, Work.final, l1, l2, Work.add_def, Nat.add_zero]
    simp only [Nat.add_assoc]
  · simp only [if_neg h]
    obtain ⟨b1, e1, l1⟩ := padded_length 0x36 K (by omega)
    obtain ⟨b2, e2, l2⟩ := padded_length 0x5c K (by omega)
    simp only [e1, e2, Res.ok_bind, Work.update, l1, l2, Work.add_def, Nat.add_zero]

/-- one iteration: its result, and no further hashing -/
theorem pbIterW_one (P U : Bytes) (w : Work) : pbIterW A P 1 U w = pbIter A P 1 U >>= fun T => .ok (T, w) := by
  unfold pbIterW pbIter
  rw [if_neg (by decide), if_neg (by decide)]
  rfl

/-- the work of one block: four bytes of index, 32 bytes of the inner hash -/
def blockCost : Work := ⟨0, 36, 2, 0, 0⟩

theorem pbBlocksW_eq (PS : HCtx A) (P : Bytes) (dkLen : Nat) : ∀ (n i : Nat) (buf : Bytes) (w : Work), (dkLen + 31) / 32 = i + n →
    pbBlocksW A PS P 1 dkLen i buf w = pbBlocks A PS P 1 dkLen i buf >>= fun b => .ok (b, w + Work.times n blockCost) := by
  intro n
  induction n with
  | zero =>
    intro i buf w h
    have hn : ¬ i * 32 < dkLen := by omega
    rw [pbBlocksW, pbBlocks, dif_neg hn, dif_neg hn, Work.add_zero]
    rfl
  | succ n ih =>
    intro i buf w h
    have hn : i * 32 < dkLen := by omega
    have hw : ((((w.update (be32enc (i + 1).toUInt32).length).final).update 32).final) = w + blockCost := by
      simp [Work.update, Work.final, be32enc, Work.add_def, blockCost]
    have ht : w + blockCost + Work.times n blockCost = w + Work.times (n + 1) blockCost := by
      rw [← Work.add_times]
      simp only [Work.add_def, Nat.add_right_comm]
    rw [pbBlocksW, pbBlocks, dif_pos hn, dif_pos hn]
    simp only [hmacUpdateW, hmacFinalW, hmacUpdate, hmacFinal, pbIterW_one, bind_assoc, Res.ok_bind, hw]
    congr 1
    funext T
    congr 1
    funext b
    rw [ih (i + 1) b _ (by omega), ht]

theorem pbkdf2W_eq (P S buf : Bytes) (dkLen : Nat) (w : Work) :
    pbkdf2W A P S 1 buf dkLen w = pbkdf2 A P S 1 buf dkLen >>= fun b =>
      .ok (b, w + initCost P.length + ⟨0, S.length, 0, 0, 0⟩ + Work.times ((dkLen + 31) / 32) blockCost) := by
  unfold pbkdf2W pbkdf2
  simp only [hmacInitW_eq, bind_assoc, Res.ok_bind, hmacUpdateW]
  congr 1
  funext h
  rw [pbBlocksW_eq A _ P dkLen ((dkLen + 31) / 32) 0 buf _ (by omega)]
  rfl

theorem mixXW_eq (X : List UInt32) (w : Work) : mixXW X w = mixX X >>= fun Y => .ok (Y, w + ⟨2, 0, 0, 0, 0⟩) := by
  unfold mixXW mixX xorSalsa8W
  simp only [bind_assoc, Res.ok_bind]
  rfl

theorem fillStepW_eq (i : Nat) (s : Pad × List UInt32) (w : Work) :
    fillStepW i (s, w) = fillStep i s >>= fun s' => .ok (s', w + ⟨2, 0, 0, 32, 0⟩) := by
  unfold fillStepW fillStep
  dsimp only
  rw [forLoop_work ⟨0, 0, 0, 1, 0⟩ 32 (fun k p => do
    let x ← rd s.2 k
    p.write (i * 32 + k) x) _ (by
      intro k p w
      simp only [bind_assoc]
      rfl)]
  simp only [bind_assoc, Res.ok_bind, mixXW_eq]
  congr 1

theorem mixStepW_eq (p : Pad) (X : List UInt32) (w : Work) :
    mixStepW p X w = mixStep p X >>= fun Y => .ok (Y, w + ⟨2, 0, 0, 0, 32⟩) := by
  unfold mixStepW mixStep
  simp only [bind_assoc]
  congr 1
  funext x16
  rw [forLoop_work ⟨0, 0, 0, 0, 1⟩ 32 (fun k X => do
    let x ← rd X k
    let v ← p.read ((32 * (x16 &&& 1023)).toNat + k)
    wr X k (x ^^^ v)) _ (by
      intro k Y w
      simp only [bind_assoc]
      rfl)]
  simp only [bind_assoc, Res.ok_bind, mixXW_eq]
  congr 1

/-- The same result, and the work: it depends on nothing but the length of the input. -/
theorem coreW_spec (input output B : Bytes) (X : List UInt32) (p : Pad) (hbig : p.Big) (ho : output.length = 32) (hB : B.length = 128)
    (hX : X.length = 32) (w : Work) : coreW A input output B X p w = .ok (Spec.Rfc.scrypt A.digest input input 1024 1 1 32,
      w + ⟨4096, input.length + 308, 10, 32768, 32768⟩ + initCost input.length + initCost input.length) := by
  have hc := core_spec A input output B X p hbig ho hB hX
  unfold core at hc
  unfold coreW
  have e0 := pbkdf2_spec A input input 1 128 B (by omega) (by omega) (by omega)
  rw [List.drop_of_length_le (by omega), List.append_nil] at e0
  have hl := pbkdf2_length A input input 1 128
  generalize hB0 : Spec.Rfc.pbkdf2 (hmac A.digest) input input 1 128 = B0 at hl e0
  obtain ⟨Y, e1, l1, s1⟩ := dec_spec B0 hl X hX
  obtain ⟨p', Z, e2, l2, s2, hb, hp⟩ := fill_spec B0 p hbig Y l1 s1
  obtain ⟨Q, e3, l3, s3⟩ := mix_spec B0 p' hb hp Z l2
  have e4 := enc_spec Q l3 B0 hl
  have hQ : (encW Q).length = 128 := by rw [encW_length, l3]
  simp only [e0, Res.ok_bind, e1, e2, e3, e4] at hc
  rw [pbkdf2W_eq, e0]
  simp only [Res.ok_bind, e1]
  rw [forLoop_work ⟨2, 0, 0, 32, 0⟩ 1024 fillStep fillStepW fillStepW_eq, e2]
  simp only [Res.ok_bind]
  rw [forLoop_work ⟨2, 0, 0, 0, 32⟩ 1024 (fun _ X => mixStep p' X) _ (fun _ X w => mixStepW_eq p' X w), e3]
  simp only [Res.ok_bind, e4]
  rw [pbkdf2W_eq, hc, Res.ok_bind, hQ]
  refine congrArg (fun w => Res.ok (_, w)) ?_
  simp only [Work.add_def, Work.times, blockCost, Work.mk.injEq]
  refine ⟨?_, ?_, ?_, ?_, ?_⟩ <;> omega

end Scrypt
end Eni
