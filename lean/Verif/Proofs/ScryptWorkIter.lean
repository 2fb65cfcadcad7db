import Verif.Proofs.ScryptWork
/-!
# The work of PBKDF2 for any number of iterations
-/
namespace Eni
namespace Scrypt
open Spec.Rfc

theorem forLoop_keeps {σ : Type} (I : σ → Prop) (n : Nat) (body : Nat → σ → Res σ) (hI : ∀ i s s', I s → body i s = .ok s' → I s') (s : σ) (hs : I s) :
    ∀ s', forLoop n body s = .ok s' → I s' := by
  induction n with
  | zero =>
    intro s' h
    cases h
    exact hs
  | succ n ih =>
    intro s' h
    rw [forLoop_succ] at h
    cases hb : forLoop n body s with
    | ok t =>
      rw [hb, Res.ok_bind] at h
      exact hI n t s' (ih t hb) h
    | _ => rw [hb] at h; cases h

theorem forLoop_workInv {σ : Type} (I : σ → Prop) (c : Work) (n : Nat) (body : Nat → σ → Res σ) (bodyW : Nat → σ × Work → Res (σ × Work))
    (h : ∀ i s w, I s → bodyW i (s, w) = body i s >>= fun s' => .ok (s', w + c)) (hI : ∀ i s s', I s → body i s = .ok s' → I s') (s : σ) (hs : I s) (w : Work) :
    forLoop n bodyW (s, w) = forLoop n body s >>= fun s' => .ok (s', w + Work.times n c) := by
  induction n with
  | zero =>
    rw [Work.add_zero]
    rfl
  | succ n ih =>
    rw [forLoop_succ, forLoop_succ, ih]
    cases hb : forLoop n body s with
    | ok t =>
      simp only [Res.ok_bind, h n t _ (forLoop_keeps I n body hI s hs t hb), Work.add_times]
    | _ => rfl

variable (A : Sha)

/-- the work of one more iteration: a new HMAC of 32 bytes -/
def iterCost (n : Nat) : Work := initCost n + ⟨0, 64, 2, 0, 0⟩

theorem pbIterW_eq (P U : Bytes) (c : Nat) (hU : U.length = 32) (w : Work) :
    pbIterW A P c U w = pbIter A P c U >>= fun T => .ok (T, w + Work.times (c - 1) (iterCost P.length)) := by
  unfold pbIterW pbIter
  by_cases hc : c = 18446744073709551615
  · rw [if_pos hc, if_pos hc]
    rfl
  · rw [if_neg hc, if_neg hc]
    obtain ⟨h, hh, hol⟩ := hmacInit_spec A P
    rw [forLoop_workInv (fun s : Bytes × Bytes => s.1.length = 32) (iterCost P.length) (c - 1) (fun _ (U, T) => do
      let h ← hmacInit A P
      let U := hmacFinal A (hmacUpdate A h U)
      let T ← forLoop 32 (fun k T => do
        let t ← rd T k
        let u ← rd U k
        wr T k (t ^^^ u)) T
      .ok (U, T)) _ ?_ ?_ (U, U) hU w]
    · simp only [bind_assoc, Res.ok_bind]
    · rintro i ⟨U, T⟩ w hU
      have hU : U.length = 32 := hU
      have hw : ((((w + initCost P.length).update U.length).final).update 32).final = w + iterCost P.length := by
        simp only [Work.update, Work.final, hU, iterCost, Work.add_def, Nat.add_zero]
        simp only [Nat.add_assoc]
      simp only [hmacInitW_eq, hh, Res.ok_bind, hmacUpdateW, hmacFinalW, hmacUpdate, hmacFinal, hw, bind_assoc]
    · rintro i ⟨U, T⟩ s' hU hs
      simp only [hh, Res.ok_bind] at hs
      cases hl : forLoop 32 (fun k T => do
        let t ← rd T k
        let u ← rd (hmacFinal A (hmacUpdate A h U)) k
        wr T k (t ^^^ u)) T with
      | ok T' =>
        rw [hl, Res.ok_bind] at hs
        cases hs
        show (hmacFinal A (hmacUpdate A h U)).length = 32
        rw [hmacFinal_spec A (hmacUpdate_spec A hol U), hmac_length]
      | _ => rw [hl] at hs; cases hs

/-- the work of one block -/
def blockCostN (c n : Nat) : Work := blockCost + Work.times (c - 1) (iterCost n)

theorem pbBlocksW_all (K : Bytes) (ms : List Bytes) (PS : HCtx A) (hPS : HolH A K ms PS) (P : Bytes) (c dkLen : Nat) :
    ∀ (n i : Nat) (buf : Bytes) (w : Work), (dkLen + 31) / 32 = i + n →
    pbBlocksW A PS P c dkLen i buf w = pbBlocks A PS P c dkLen i buf >>= fun b => .ok (b, w + Work.times n (blockCostN c P.length)) := by
  intro n
  induction n with
  | zero =>
    intro i buf w h
    have hn : ¬ i * 32 < dkLen := by omega
    rw [pbBlocksW, pbBlocks, dif_neg hn, dif_neg hn, Work.add_zero]
    rfl
  | succ n ih =>
    intro i buf w h
    have hn : i * 32 < dkLen := by omega
    have hw : ((((w.update (be32enc (i + 1).toUInt32).length).final).update 32).final) = w + blockCost := by
      simp [Work.update, Work.final, be32enc, Work.add_def, blockCost]
    have hl : (hmacFinal A (hmacUpdate A PS (be32enc (i + 1).toUInt32))).length = 32 := by
      rw [hmacFinal_spec A (hmacUpdate_spec A hPS _), hmac_length]
    have ht : w + blockCost + Work.times (c - 1) (iterCost P.length) + Work.times n (blockCostN c P.length) = w + Work.times (n + 1) (blockCostN c P.length) := by
      rw [← Work.add_times, Work.add_assoc w blockCost]
      show w + blockCostN c P.length + _ = _
      simp only [Work.add_def, Nat.add_right_comm]
    have e : pbIterW A P c (hmacFinal A (hmacUpdate A PS (be32enc (i + 1).toUInt32))) (w + blockCost) = _ := pbIterW_eq A P _ c hl (w + blockCost)
    simp only [hmacUpdate, hmacFinal] at e
    rw [pbBlocksW, pbBlocks, dif_pos hn, dif_pos hn]
    simp only [hmacUpdateW, hmacFinalW, hmacUpdate, hmacFinal, e, bind_assoc, Res.ok_bind, hw]
    congr 1
    funext T
    congr 1
    funext b
    rw [ih (i + 1) b _ (by omega), ht]

/-- `PBKDF2_SHA256` for any number of iterations. -/
theorem pbkdf2W_all (P S buf : Bytes) (c dkLen : Nat) (w : Work) :
    pbkdf2W A P S c buf dkLen w = pbkdf2 A P S c buf dkLen >>= fun b =>
      .ok (b, w + initCost P.length + ⟨0, S.length, 0, 0, 0⟩ + Work.times ((dkLen + 31) / 32) (blockCostN c P.length)) := by
  obtain ⟨h, hh, hol⟩ := hmacInit_spec A P
  unfold pbkdf2W pbkdf2
  simp only [hmacInitW_eq, hh, Res.ok_bind, hmacUpdateW]
  have := pbBlocksW_all A P _ (hmacUpdate A h S) (hmacUpdate_spec A hol S) P c dkLen ((dkLen + 31) / 32) 0 buf
    ((w + initCost P.length).update S.length) (by omega)
  simp only [hmacUpdate] at this
  exact this

end Scrypt
end Eni
