import Verif.Proofs.Scrypt
import Verif.Spec.Hex
/-!
# Hexadecimal input and output of the scrypt operation
-/
namespace Eni
namespace Scrypt
open Spec.Hex

theorem forall_byte {P : UInt8 → Prop} (h : ∀ n < 256, P (UInt8.ofNat n)) (c : UInt8) : P c := by
  have := h c.toNat c.toNat_lt
  simpa using this

theorem digit_cases : ∀ c : UInt8, isHex c = (digitVal c).isSome ∧ ∀ x, digitVal c = some x → nibble (tolower c) = x.toUInt8 ∧ x < 16 :=
  forall_byte (by
    have : ∀ n < 256, isHex (UInt8.ofNat n) = (digitVal (UInt8.ofNat n)).isSome ∧
        (match digitVal (UInt8.ofNat n) with | none => true | some x => nibble (tolower (UInt8.ofNat n)) == x.toUInt8 && decide (x < 16)) = true := by
      decide +kernel
    intro n hn
    obtain ⟨h1, h2⟩ := this n hn
    refine ⟨h1, fun x hx => ?_⟩
    rw [hx] at h2
    simpa using h2)

theorem nibbles : ∀ x < 16, ∀ y < 16, ((0 : UInt8) + x.toUInt8) <<< 4 + y.toUInt8 = (16 * x + y).toUInt8 := by decide +kernel

theorem unhex_step (s : Bytes) (b : Bytes) (i : Nat) (x c1 c2 : UInt8) (hi : i < b.length) (hx : b[i]? = some x) (h1 : s[2 * i]? = some c1)
    (h2 : s[2 * i + 1]? = some c2) :
    (do
      let c1 ← rd s (2 * i)
      let c2 ← rd s (2 * i + 1)
      let x ← rd b i
      let input ← wr b i (x + nibble (tolower c1))
      let x ← rd input i
      let input ← wr input i (x <<< 4)
      let x ← rd input i
      wr input i (x + nibble (tolower c2))) = Res.ok (b.set i ((x + nibble (tolower c1)) <<< 4 + nibble (tolower c2))) := by
  simp only [rd_of h1, rd_of h2, rd_of hx, Res.ok_bind, wr_of hi]
  rw [rd_of (x := x + nibble (tolower c1)) (by simp [hi]), Res.ok_bind, wr_of (by simpa using hi), Res.ok_bind,
    rd_of (x := (x + nibble (tolower c1)) <<< 4) (by simp [hi]), Res.ok_bind, wr_of (by simpa using hi)]
  simp

theorem decode_length {s d : Bytes} (h : decode s = some d) : s.length = 2 * d.length := by
  fun_induction decode s generalizing d with
  | case1 => cases h; rfl
  | case2 => cases h
  | case3 a b r x y t _ _ _ ih =>
    cases h
    have := ih ‹_›
    simp [this]; omega
  | case4 => cases h

theorem decode_get {s d : Bytes} (h : decode s = some d) (i : Nat) (hi : i < d.length) :
    ∃ c1 c2 x y, s[2 * i]? = some c1 ∧ s[2 * i + 1]? = some c2 ∧ digitVal c1 = some x ∧ digitVal c2 = some y ∧ d[i]? = some (16 * x + y).toUInt8 := by
  fun_induction decode s generalizing d i with
  | case1 => cases h; simp at hi
  | case2 => cases h
  | case3 a b r x y t ht hy hx ih =>
    cases h
    cases i with
    | zero => exact ⟨a, b, x, y, rfl, rfl, hx, hy, rfl⟩
    | succ i =>
      obtain ⟨c1, c2, x', y', e⟩ := ih ht i (by simpa using hi)
      refine ⟨c1, c2, x', y', ?_⟩
      rw [show 2 * (i + 1) = 2 * i + 1 + 1 by omega, show 2 * i + 1 + 1 + 1 = (2 * i + 1) + 1 + 1 by omega]
      simpa using e
  | case4 => cases h

/-- Decoding fills the buffer from the left and leaves zeros behind. -/
theorem unhex_spec {s d : Bytes} (h : decode s = some d) (n : Nat) (hn : d.length ≤ n) :
    unhex s (List.replicate n 0) = .ok (d ++ List.replicate (n - d.length) 0) := by
  have hl := decode_length h
  have hlen : s.length / 2 = d.length := by omega
  obtain ⟨b, e, l, g⟩ := forLoop_set (s.length / 2) (fun i input => do
    let c1 ← rd s (2 * i)
    let c2 ← rd s (2 * i + 1)
    let x ← rd input i
    let input ← wr input i (x + nibble (tolower c1))
    let x ← rd input i
    let input ← wr input i (x <<< 4)
    let x ← rd input i
    wr input i (x + nibble (tolower c2))) (List.replicate n 0)
    (fun i x => (x + nibble (tolower (s[2 * i]?.getD 0))) <<< 4 + nibble (tolower (s[2 * i + 1]?.getD 0))) (by simp; omega) (by
      intro i b x hi hb hx
      obtain ⟨c1, c2, _, _, h1, h2, _⟩ := decode_get h i (by omega)
      have hbi : i < b.length := by rw [hb]; simp; omega
      rw [unhex_step s b i x c1 c2 hbi hx h1 h2, h1, h2]
      rfl)
  unfold unhex
  rw [e]
  congr 1
  rw [List.length_replicate] at l
  apply List.ext_getElem?
  intro k
  by_cases hk : k < n
  · rw [g k 0 (by rw [List.getElem?_replicate, if_pos hk])]
    by_cases hk' : k < d.length
    · obtain ⟨c1, c2, x, y, h1, h2, h3, h4, h5⟩ := decode_get h k hk'
      obtain ⟨_, d1⟩ := digit_cases c1
      obtain ⟨_, d2⟩ := digit_cases c2
      obtain ⟨e1, l1⟩ := d1 x h3
      obtain ⟨e2, l2⟩ := d2 y h4
      rw [if_pos (by omega), List.getElem?_append_left hk', h5, h1, h2]
      simp only [Option.getD_some, e1, e2, nibbles x l1 y l2]
    · rw [if_neg (by omega), List.getElem?_append_right (by omega), List.getElem?_replicate, if_pos (by omega)]
  · rw [List.getElem?_eq_none (by omega), List.getElem?_eq_none (by simp; omega)]

theorem hexOut_encodes (b : Bytes) : Encodes b (hexOut b) := by
  induction b with
  | nil => exact .nil
  | cons x b ih =>
    have : ∀ x : UInt8, digits[x.toNat / 16]? = some (hexLow (x / 16)) ∧ digits[x.toNat % 16]? = some (hexLow (x % 16)) :=
      forall_byte (by decide +kernel)
    obtain ⟨h1, h2⟩ := this x
    simp only [hexOut, List.flatMap_cons, List.cons_append, List.nil_append]
    exact .cons h1 h2 ih

theorem encodes_unique {b t t' : Bytes} (h : Encodes b t) (h' : Encodes b t') : t = t' := by
  induction h generalizing t' with
  | nil => cases h'; rfl
  | cons h1 h2 _ ih =>
    cases h' with
    | cons h1' h2' h3' =>
      rw [h1] at h1'
      rw [h2] at h2'
      cases h1'
      cases h2'
      rw [ih h3']

theorem encodes_shape {b t : Bytes} (h : Encodes b t) : t.length = 2 * b.length ∧ ∀ c ∈ t, c ∈ digits := by
  induction h with
  | nil => simp
  | cons h1 h2 _ ih =>
    refine ⟨by simp [ih.1]; omega, ?_⟩
    intro c hc
    rcases List.mem_cons.mp hc with rfl | hc
    · exact List.mem_of_getElem? h1
    · rcases List.mem_cons.mp hc with rfl | hc
      · exact List.mem_of_getElem? h2
      · exact ih.2 c hc

/-- A string of digits of even length denotes bytes. -/
theorem decode_some : ∀ s : Bytes, s.length % 2 = 0 → s.all isHex = true → ∃ d, decode s = some d
  | [], _, _ => ⟨[], rfl⟩
  | [_], h, _ => by simp at h
  | a :: b :: r, h, ha => by
    simp only [List.all_cons, Bool.and_eq_true] at ha
    obtain ⟨h1, h2, h3⟩ := ha
    rw [(digit_cases a).1] at h1
    rw [(digit_cases b).1] at h2
    obtain ⟨x, hx⟩ := Option.isSome_iff_exists.mp h1
    obtain ⟨y, hy⟩ := Option.isSome_iff_exists.mp h2
    obtain ⟨t, ht⟩ := decode_some r (by simp at h; omega) h3
    exact ⟨(16 * x + y).toUInt8 :: t, by simp [decode, hx, hy, ht]⟩

end Scrypt
end Eni
