import Verif.Proofs.HashFold
/-!
# Properties of the string hash functions: C72, C73
-/
namespace Eni.Props
open Spec

/-! ### C72 -/

/-- C72, the part that holds: eight of the hash functions never collide on two strings of the same length that differ at one position. -/
theorem C72_separates_partial {s t : List UInt8} (h : DiffOne s t) :
    Hasher.rs s ≠ Hasher.rs t ∧ Hasher.pjw s ≠ Hasher.pjw t ∧ Hasher.elf s ≠ Hasher.elf t ∧ Hasher.bkdr s ≠ Hasher.bkdr t ∧
    Hasher.sdbm s ≠ Hasher.sdbm t ∧ Hasher.djb s ≠ Hasher.djb t ∧ Hasher.dek s ≠ Hasher.dek t ∧ Hasher.fnv s ≠ Hasher.fnv t := by
  refine ⟨Hasher.rs_separates h, ?_, Hasher.elf_separates h, ?_, ?_, ?_, ?_, ?_⟩
  · rw [Hasher.pjw_eq_elf, Hasher.pjw_eq_elf]
    exact Hasher.elf_separates h
  · exact Hasher.poly_separates _ 131 3376959019 (by decide) (fun _ _ => rfl) h 0
  · exact Hasher.poly_separates _ 65599 2390421439 (by decide) Hasher.sdbm_step h 0
  · exact Hasher.poly_separates _ 33 1041204193 (by decide) Hasher.djb_step h 5381
  · have hl : s.length = t.length := by
      obtain ⟨u, v, a, b, _, rfl, rfl⟩ := h
      simp
    unfold Hasher.dek
    rw [hl]
    refine Hasher.diffOne_foldl _ ?_ ?_ h _
    · intro x y c e
      exact Hasher.rot_inj (Hasher.xor_right_inj e)
    · intro x a b e
      exact Hasher.sx_inj (Hasher.xor_left_inj e)
  · refine Hasher.diffOne_foldl _ ?_ ?_ h _
    · intro x y c e
      exact Hasher.mul_inj (show (0x811C9DC5 : UInt32) * 3180386573 = 1 by decide) (Hasher.xor_right_inj e)
    · intro x a b e
      exact Hasher.sx_inj (Hasher.xor_left_inj e)

example : Hasher.elf [65, 66, 67] ≠ Hasher.elf [65, 200, 67] :=
  (C72_separates_partial ⟨[65], [67], 66, 200, by decide, rfl, rfl⟩).2.2.1

/-- C72 is false of BP: only the last five characters matter. -/
theorem C72_bp_false (u u' v : List UInt8) (hv : 5 ≤ v.length) : Hasher.bp (u ++ v) = Hasher.bp (u' ++ v) := by
  unfold Hasher.bp
  rw [List.foldl_append, List.foldl_append]
  generalize u.foldl (fun (h : UInt32) c => (h <<< 7) ^^^ Hasher.sx c) 0 = x
  generalize u'.foldl (fun (h : UInt32) c => (h <<< 7) ^^^ Hasher.sx c) 0 = y
  have hx : x = y ^^^ (y ^^^ x) := by rw [← UInt32.xor_assoc]; simp
  have h := Hasher.bp_diff v y (y ^^^ x)
  rw [← hx, Hasher.shl7_zero v hv] at h
  rw [h]
  simp

example : Hasher.bp [49, 97, 98, 99, 100, 101] = Hasher.bp [50, 97, 98, 99, 100, 101] := C72_bp_false [49] [50] _ (by decide)

/-- C72 is false of JS and AP: "k@.(" and "k@_(" collide, "LiQG{x" and "LiQH{x" collide. -/
theorem C72_js_ap_false :
    (DiffOne [107, 64, 46, 40] [107, 64, 95, 40] ∧ Hasher.js [107, 64, 46, 40] = Hasher.js [107, 64, 95, 40]) ∧
    (DiffOne [76, 105, 81, 71, 123, 120] [76, 105, 81, 72, 123, 120] ∧
      Hasher.ap [76, 105, 81, 71, 123, 120] = Hasher.ap [76, 105, 81, 72, 123, 120]) :=
  ⟨⟨⟨[107, 64], [40], 46, 95, by decide, rfl, rfl⟩, by decide⟩, ⟨⟨[76, 105, 81], [123, 120], 71, 72, by decide, rfl, rfl⟩, by decide⟩⟩

/-! ### C73 -/

/-- The signature as documented (StringHasher.h 261-273): the number of dots in the four high bits, bit 27 for digits, bit 26 for '-', and bit
`25 - k` for the `k`-th letter. -/
def Documented (s : List UInt8) (r : UInt32) : Prop :=
  r.toNat / 2 ^ 28 = dots s ∧ (r.toNat.testBit 27 = true ↔ ∃ c ∈ s, 48 ≤ c.toNat ∧ c.toNat ≤ 57) ∧ (r.toNat.testBit 26 = true ↔ (45 : UInt8) ∈ s) ∧
  ∀ k < 26, (r.toNat.testBit (25 - k) = true ↔ ∃ c ∈ s, c.toNat = 65 + k ∨ c.toNat = 97 + k)

/-- C73 is false of the code: the letters are numbered from the other end, '_' has the bit of '-', and the dots are counted modulo 16. -/
theorem C73_documented_false :
    (∃ r, Hasher.es [97] = .ok r ∧ r.toNat.testBit 25 = false) ∧ (∃ r, Hasher.es [45] = .ok r ∧ r.toNat.testBit 26 = false) ∧
    (∃ r, Hasher.es [95] = .ok r ∧ r.toNat.testBit 26 = true) ∧ (∃ r, Hasher.es (List.replicate 16 46) = .ok r ∧ r = 0) ∧
    (∀ r, Hasher.es [97] = .ok r → ¬ Documented [97] r) := by
  refine ⟨⟨1, by decide, by decide⟩, ⟨0, by decide, by decide⟩, ⟨67108864, by decide, by decide⟩, ⟨0, by decide, rfl⟩, ?_⟩
  intro r hr h
  have : Hasher.es [97] = .ok 1 := by decide
  rw [this] at hr
  cases hr
  have := (h.2.2.2 0 (by decide)).mpr ⟨97, by simp, by decide⟩
  revert this
  decide

/-- C73, what the signature of a 7-bit string is: the dots modulo 16, the digits, '_' instead of '-', and bit `k` for the `k`-th letter. -/
theorem C73_layout_partial (s : List UInt8) (hs : Ascii s) :
    ∃ r, Hasher.es s = .ok r ∧ r.toNat / 2 ^ 28 = dots s % 16 ∧ (r.toNat.testBit 27 = true ↔ ∃ c ∈ s, 48 ≤ c.toNat ∧ c.toNat ≤ 57) ∧
      (r.toNat.testBit 26 = true ↔ (95 : UInt8) ∈ s) ∧
      ∀ k < 26, (r.toNat.testBit k = true ↔ ∃ c ∈ s, c.toNat = 65 + k ∨ c.toNat = 97 + k) := by
  refine ⟨_, Hasher.es_eq s hs, Hasher.es_high s, ?_, ?_, ?_⟩
  · rw [Hasher.es_bit s (by decide), Hasher.bits_bit]
    refine exists_congr fun c => and_congr_right fun _ => ?_
    unfold cls
    split <;> (try split) <;> (try split) <;> (try split) <;> simp <;> omega
  · rw [Hasher.es_bit s (by decide), Hasher.bits_bit]
    constructor
    · rintro ⟨c, hc, h⟩
      have : c.toNat = 95 := by
        unfold cls at h
        split at h <;> (try split at h) <;> (try split at h) <;> (try split at h) <;> simp at h <;> omega
      have : c = 95 := UInt8.toNat_inj.mp this
      exact this ▸ hc
    · intro h
      exact ⟨95, h, by decide⟩
  · intro k hk
    rw [Hasher.es_bit s (by omega), Hasher.bits_bit]
    refine exists_congr fun c => and_congr_right fun _ => ?_
    unfold cls
    split <;> (try split) <;> (try split) <;> (try split) <;> simp <;> omega

example : Hasher.es [97, 90, 46, 95] = .ok 0x16000001 := by decide

end Eni.Props
