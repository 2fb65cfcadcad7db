import Verif.Proofs.HashDiff
/-!
# The ELF and PJW hash functions as arithmetic on 28-bit numbers

The state `h` is written as `16 * z + l`. One step rotates `z` by four bits; the character enters by addition. See `elfNat_split`.
-/
namespace Eni.Hasher
open Spec

/-- The fold of the four high bits. -/
def fold28 (g : Nat) : Nat := (g % 2 ^ 28) ^^^ (g / 2 ^ 28 * 16)

theorem fold28_bit (g : Nat) (hg : g < 2 ^ 32) (i : Nat) :
    (fold28 g).testBit i = ((decide (i < 28) && g.testBit i) ^^ (decide (4 ≤ i) && g.testBit (24 + i))) := by
  unfold fold28
  rw [Nat.testBit_xor, Nat.testBit_mod_two_pow, show (16 : Nat) = 2 ^ 4 from rfl, Nat.testBit_mul_two_pow, Nat.testBit_div_two_pow]
  by_cases h : 4 ≤ i
  · rw [show i - 4 + 28 = 24 + i by omega]
  · simp [h]

theorem high_bit (g : UInt32) {i : Nat} (h : 32 ≤ i) : g.toBitVec.getLsbD i = false := BitVec.getLsbD_of_ge _ _ h

theorem mask_all (i : Nat) : (0xF0000000#32).getLsbD i = (decide (28 ≤ i) && decide (i < 32)) := by
  by_cases h1 : 28 ≤ i
  · by_cases h2 : i < 32
    · rw [mask_bit i h1 h2]; simp [h1, h2]
    · rw [BitVec.getLsbD_of_ge _ _ (by omega)]; simp [h2]
  · rw [BitVec.getLsbD_ofNat]; simp [h1, low_mask (show i < 28 by omega)]

theorem elfStep_fold (h : UInt32) (c : UInt8) : (elfStep h c).toNat = fold28 ((h <<< 4) + sx c).toNat := by
  apply Nat.eq_of_testBit_eq
  intro i
  rw [fold28_bit _ (UInt32.toNat_lt _)]
  unfold elfStep
  generalize (h <<< 4) + sx c = g
  dsimp only
  have e1 : g.toNat.testBit i = g.toBitVec.getLsbD i := rfl
  have e2 : g.toNat.testBit (24 + i) = g.toBitVec.getLsbD (24 + i) := rfl
  have e3 : ∀ x : UInt32, x.toNat.testBit i = x.toBitVec.getLsbD i := fun x => rfl
  rw [e1, e2, e3]
  have hx : ∀ j, (g &&& 0xF0000000).toBitVec.getLsbD j = (g.toBitVec.getLsbD j && (decide (28 ≤ j) && decide (j < 32))) := by
    intro j
    rw [UInt32.toBitVec_and, BitVec.getLsbD_and, ← mask_all]; rfl
  by_cases hi : i < 32
  · split
    · rw [UInt32.toBitVec_and, BitVec.getLsbD_and, UInt32.toBitVec_xor, BitVec.getLsbD_xor, shr_bit, hx, UInt32.toBitVec_not, BitVec.getLsbD_not, hx]
      by_cases h28 : i < 28
      · by_cases h4 : 4 ≤ i
        · by_cases h8 : i < 8
          · simp [h28, h4, hi, show 24 + i < 32 by omega, show 28 ≤ 24 + i by omega, show ¬ 28 ≤ i by omega]
          · rw [high_bit g (show 32 ≤ 24 + i by omega)]
            simp [h28, hi, show ¬ 28 ≤ i by omega]
        · simp [h28, h4, hi, show ¬ 28 ≤ 24 + i by omega, show ¬ 28 ≤ i by omega]
      · rw [high_bit g (show 32 ≤ 24 + i by omega)]
        simp [h28, hi, show 28 ≤ i by omega]
    · rename_i h0
      have h0 : g &&& 0xF0000000 = 0 := by simpa using h0
      have hz : ∀ j, (g.toBitVec.getLsbD j && (decide (28 ≤ j) && decide (j < 32))) = false := by
        intro j
        rw [← hx, h0]; simp
      rw [UInt32.toBitVec_and, BitVec.getLsbD_and, UInt32.toBitVec_not, BitVec.getLsbD_not, hx, hz i]
      have h1 := hz i
      have h2 := hz (24 + i)
      by_cases h28 : i < 28
      · by_cases h4 : 4 ≤ i
        · by_cases h8 : i < 8
          · rw [decide_eq_true (show 28 ≤ 24 + i by omega), decide_eq_true (show 24 + i < 32 by omega), Bool.and_true, Bool.and_true] at h2
            rw [h2]
            simp [h28, hi]
          · rw [high_bit g (show 32 ≤ 24 + i by omega)]
            simp [h28, hi]
        · simp [h28, h4, hi]
      · rw [high_bit g (show 32 ≤ 24 + i by omega)]
        rw [decide_eq_true (show 28 ≤ i by omega), decide_eq_true hi, Bool.and_true, Bool.and_true] at h1
        rw [h1]
        simp
  · rw [BitVec.getLsbD_of_ge _ _ (by omega), high_bit g (show 32 ≤ 24 + i by omega)]
    simp [show ¬ i < 28 by omega]

theorem pjw_eq_elf_step (h : UInt32) (c : UInt8) : pjwStep h c = elfStep h c := by
  unfold pjwStep elfStep
  generalize (h <<< 4) + sx c = g
  dsimp only
  by_cases h0 : g &&& 0xF0000000 = 0
  · simp [h0]
  · rw [if_pos h0, if_pos h0]
    apply UInt32.toBitVec_inj.mp
    apply BitVec.eq_of_getLsbD_eq
    intro i hi
    rw [UInt32.toBitVec_and, UInt32.toBitVec_and, BitVec.getLsbD_and, BitVec.getLsbD_and, UInt32.toBitVec_not, UInt32.toBitVec_not,
      BitVec.getLsbD_not, BitVec.getLsbD_not, UInt32.toBitVec_and, BitVec.getLsbD_and, UInt32.toBitVec_xor, BitVec.getLsbD_xor, shr_bit]
    have hm : (0xF0000000 : UInt32).toBitVec.getLsbD i = (decide (28 ≤ i) && decide (i < 32)) := mask_all i
    rw [hm]
    by_cases h28 : 28 ≤ i
    · rw [high_bit _ (show 32 ≤ 24 + i by omega)]
      cases g.toBitVec.getLsbD i <;> simp [h28, hi]
    · simp [h28]

/-- The value by which a character moves the upper part of the state: its high nibble as a signed number, plus 16. -/
def lift (c : UInt8) : Nat := if c.toNat < 128 then c.toNat / 16 + 16 else c.toNat / 16

/-- One step on the upper part of the state; `e` is the low nibble of the previous character plus `lift` of this one. -/
def turn (z e : Nat) : Nat :=
  let n := (z + e / 16 + (2 ^ 24 - 1)) % 2 ^ 24
  16 * (n % 2 ^ 20) + ((e % 16) ^^^ (n / 2 ^ 20))

theorem xor_lt16 {a b : Nat} (ha : a < 16) (hb : b < 16) : a ^^^ b < 16 := Nat.xor_lt_two_pow (n := 4) ha hb

theorem turn_lt (z e : Nat) : turn z e < 2 ^ 24 := by
  unfold turn
  have := @xor_lt16 (e % 16) ((z + e / 16 + (2 ^ 24 - 1)) % 2 ^ 24 / 2 ^ 20) (by omega) (by omega)
  dsimp only
  omega

theorem xor_nibble (a b d : Nat) (hb : b < 16) (hd : d < 16) : (16 * a + b) ^^^ d = 16 * a + (b ^^^ d) := by
  have h := xor_lt16 hb hd
  have h1 : ((16 * a + b) ^^^ d) / 16 = a := by
    rw [show (16 : Nat) = 2 ^ 4 from rfl, Nat.xor_div_two_pow]
    rw [show (2 ^ 4 * a + b) / 2 ^ 4 = a by omega, show d / 2 ^ 4 = 0 by omega, Nat.xor_zero]
  have h2 : ((16 * a + b) ^^^ d) % 16 = b ^^^ d := by
    rw [show (16 : Nat) = 2 ^ 4 from rfl, Nat.xor_mod_two_pow]
    rw [show (2 ^ 4 * a + b) % 2 ^ 4 = b by omega, show d % 2 ^ 4 = d by omega]
  omega

theorem xor_mul16 (a b d : Nat) (hb : b < 16) : (16 * a + b) ^^^ (d * 16) = 16 * (a ^^^ d) + b := by
  have h1 : ((16 * a + b) ^^^ (d * 16)) / 16 = a ^^^ d := by
    rw [show (16 : Nat) = 2 ^ 4 from rfl, Nat.xor_div_two_pow]
    rw [show (2 ^ 4 * a + b) / 2 ^ 4 = a by omega, show d * 2 ^ 4 / 2 ^ 4 = d by omega]
  have h2 : ((16 * a + b) ^^^ (d * 16)) % 16 = b := by
    rw [show (16 : Nat) = 2 ^ 4 from rfl, Nat.xor_mod_two_pow]
    rw [show (2 ^ 4 * a + b) % 2 ^ 4 = b by omega, show d * 2 ^ 4 % 2 ^ 4 = 0 by omega, Nat.xor_zero]
  omega

/-- One step in terms of the two parts of the state. -/
theorem elfStep_split (h : UInt32) (hh : h.toNat < 2 ^ 28) (c : UInt8) :
    (elfStep h c).toNat = 16 * turn (h.toNat / 16) (h.toNat % 16 + lift c) + c.toNat % 16 := by
  rw [elfStep_fold]
  have hc : c.toNat < 256 := c.toNat_lt
  have hs : (h <<< 4).toNat = h.toNat * 16 := by
    rw [UInt32.toNat_shiftLeft, Nat.shiftLeft_eq, show (4 : UInt32).toNat % 32 = 4 from rfl]
    omega
  have hg : ((h <<< 4) + sx c).toNat = 16 * ((h.toNat / 16 * 16 + (h.toNat % 16 + lift c) + (2 ^ 28 - 16)) % 2 ^ 28) + c.toNat % 16 := by
    rw [UInt32.toNat_add, hs]
    unfold lift sx
    have hlt : (c < 128) ↔ c.toNat < 128 := by rw [UInt8.lt_iff_toNat_lt]; rfl
    by_cases h1 : c.toNat < 128
    · rw [if_pos (hlt.mpr h1), if_pos h1, UInt32.toNat_ofNat']
      omega
    · rw [if_neg (fun h => h1 (hlt.mp h)), if_neg h1, UInt32.toNat_add, UInt32.toNat_ofNat']
      have : (0xFFFFFF00 : UInt32).toNat = 4294967040 := rfl
      rw [this]
      omega
  rw [hg]
  generalize hE : h.toNat % 16 + lift c = e
  generalize hZ : h.toNat / 16 = z at *
  have hz : z < 2 ^ 24 := by omega
  have he : e < 64 := by unfold lift at hE; split at hE <;> omega
  generalize hV : (z * 16 + e + (2 ^ 28 - 16)) % 2 ^ 28 = V
  unfold fold28 turn
  dsimp only
  generalize hN : (z + e / 16 + (2 ^ 24 - 1)) % 2 ^ 24 = n
  have hVn : V = 16 * n + e % 16 := by omega
  have hn : n < 2 ^ 24 := by omega
  rw [show (16 * V + c.toNat % 16) % 2 ^ 28 = 16 * (16 * (n % 2 ^ 20) + e % 16) + c.toNat % 16 by omega,
    show (16 * V + c.toNat % 16) / 2 ^ 28 = n / 2 ^ 20 by omega, xor_mul16 _ _ _ (by omega), xor_nibble _ _ _ (by omega) (by omega)]

theorem xor_cancel {a b d : Nat} (h : a ^^^ d = b ^^^ d) : a = b := by
  have := congrArg (· ^^^ d) h
  simpa [Nat.xor_assoc] using this

/-- For a fixed character the upper part is permuted. -/
theorem turn_inj {z z' e : Nat} (hz : z < 2 ^ 24) (hz' : z' < 2 ^ 24) (h : turn z e = turn z' e) : z = z' := by
  unfold turn at h
  dsimp only at h
  generalize hN : (z + e / 16 + (2 ^ 24 - 1)) % 2 ^ 24 = n at h
  generalize hN' : (z' + e / 16 + (2 ^ 24 - 1)) % 2 ^ 24 = n' at h
  have h1 := @xor_lt16 (e % 16) (n / 2 ^ 20) (by omega) (by omega)
  have h2 := @xor_lt16 (e % 16) (n' / 2 ^ 20) (by omega) (by omega)
  have h3 : (e % 16) ^^^ (n / 2 ^ 20) = (e % 16) ^^^ (n' / 2 ^ 20) := by omega
  rw [Nat.xor_comm, Nat.xor_comm (e % 16)] at h3
  have h4 := xor_cancel h3
  omega

/-- Different characters give different upper parts if their low nibbles are the same. -/
theorem turn_diff {z e e' : Nat} (h1 : e < e' + 16) (h2 : e' < e + 16) (h : turn z e = turn z e') : e = e' := by
  unfold turn at h
  dsimp only at h
  generalize hN : (z + e / 16 + (2 ^ 24 - 1)) % 2 ^ 24 = n at h
  generalize hN' : (z + e' / 16 + (2 ^ 24 - 1)) % 2 ^ 24 = n' at h
  have h3 := @xor_lt16 (e % 16) (n / 2 ^ 20) (by omega) (by omega)
  have h4 := @xor_lt16 (e' % 16) (n' / 2 ^ 20) (by omega) (by omega)
  have h5 : n = n' := by omega
  subst h5
  have h6 : (e % 16) ^^^ (n / 2 ^ 20) = (e' % 16) ^^^ (n / 2 ^ 20) := by omega
  have h7 := xor_cancel h6
  omega

/-- Different characters give different upper parts after one more character. -/
theorem turn_turn {z e e' f f' : Nat} (h1 : e < e' + 16) (h2 : e' < e + 16) (h3 : f < f' + 16) (h4 : f' < f + 16)
    (h : turn (turn z e) f = turn (turn z e') f') : e = e' ∧ f = f' := by
  have key : ∀ y y' : Nat, turn y f = turn y' f' →
      (y + f / 16 + (2 ^ 24 - 1)) % 2 ^ 20 = (y' + f' / 16 + (2 ^ 24 - 1)) % 2 ^ 20 ∧
      ((y + f / 16 + (2 ^ 24 - 1)) % 2 ^ 24 = (y' + f' / 16 + (2 ^ 24 - 1)) % 2 ^ 24 → f = f') := by
    intro y y' h
    unfold turn at h
    dsimp only at h
    generalize hN : (y + f / 16 + (2 ^ 24 - 1)) % 2 ^ 24 = n at h
    generalize hN' : (y' + f' / 16 + (2 ^ 24 - 1)) % 2 ^ 24 = n' at h
    have h5 := @xor_lt16 (f % 16) (n / 2 ^ 20) (by omega) (by omega)
    have h6 := @xor_lt16 (f' % 16) (n' / 2 ^ 20) (by omega) (by omega)
    refine ⟨by omega, fun e => ?_⟩
    subst e
    have h7 : (f % 16) ^^^ (n / 2 ^ 20) = (f' % 16) ^^^ (n / 2 ^ 20) := by omega
    have := xor_cancel h7
    omega
  obtain ⟨k1, k2⟩ := key _ _ h
  clear key h
  unfold turn at k1 k2
  dsimp only at k1 k2
  generalize hN : (z + e / 16 + (2 ^ 24 - 1)) % 2 ^ 24 = n at k1 k2
  generalize hN' : (z + e' / 16 + (2 ^ 24 - 1)) % 2 ^ 24 = n' at k1 k2
  have h5 := @xor_lt16 (e % 16) (n / 2 ^ 20) (by omega) (by omega)
  have h6 := @xor_lt16 (e' % 16) (n' / 2 ^ 20) (by omega) (by omega)
  have hnn : n = n' → (e % 16) ^^^ (n / 2 ^ 20) = (e' % 16) ^^^ (n' / 2 ^ 20) → e % 16 = e' % 16 := by
    intro a b
    subst a
    exact xor_cancel b
  generalize (e % 16) ^^^ (n / 2 ^ 20) = x at *
  generalize (e' % 16) ^^^ (n' / 2 ^ 20) = x' at *
  have hi : e / 16 = e' / 16 ∨ e / 16 = e' / 16 + 1 ∨ e' / 16 = e / 16 + 1 := by omega
  have hj : f / 16 = f' / 16 ∨ f / 16 = f' / 16 + 1 ∨ f' / 16 = f / 16 + 1 := by omega
  rcases hi with hi | hi | hi <;> rcases hj with hj | hj | hj
  · have a1 : n = n' := by omega
    have a2 : x = x' := by omega
    have a3 := hnn a1 a2
    have a4 : e = e' := by omega
    refine ⟨a4, k2 ?_⟩
    rw [a1, a2, hj]
  · exfalso
    have := k2 (by omega)
    omega
  · exfalso
    have := k2 (by omega)
    omega
  all_goals
    exfalso
    first
    | omega
    | (have := k2 (by omega); omega)

theorem lift_char {a b : UInt8} (h1 : lift a = lift b) (h2 : a.toNat % 16 = b.toNat % 16) : a = b := by
  unfold lift at h1
  have ha : a.toNat < 256 := a.toNat_lt
  have hb : b.toNat < 256 := b.toNat_lt
  apply UInt8.toNat_inj.mp
  split at h1 <;> split at h1 <;> omega

theorem lift_near (a b : UInt8) : lift a < lift b + 16 := by
  unfold lift
  have ha : a.toNat < 256 := a.toNat_lt
  have hb : b.toNat < 256 := b.toNat_lt
  split <;> split <;> omega

/-- Equal low nibbles and different upper parts stay different. -/
theorem elf_tail (v : List UInt8) : ∀ x y : UInt32, x.toNat < 2 ^ 28 → y.toNat < 2 ^ 28 → x.toNat % 16 = y.toNat % 16 → x ≠ y →
    v.foldl elfStep x ≠ v.foldl elfStep y := by
  induction v with
  | nil => intro x y _ _ _ h; exact h
  | cons c v ih =>
    intro x y hx hy hl hne
    refine ih _ _ (elfStep_lt x c) (elfStep_lt y c) ?_ ?_
    · rw [elfStep_split x hx, elfStep_split y hy]; omega
    · intro e
      have e := congrArg UInt32.toNat e
      rw [elfStep_split x hx, elfStep_split y hy, hl] at e
      have := turn_inj (z := x.toNat / 16) (z' := y.toNat / 16) (e := y.toNat % 16 + lift c) (by omega) (by omega) (by omega)
      exact hne (UInt32.toNat_inj.mp (by omega))

theorem elf_separates {s t : List UInt8} (h : DiffOne s t) : elf s ≠ elf t := by
  obtain ⟨u, v, a, b, hab, rfl, rfl⟩ := h
  unfold elf
  rw [List.foldl_append, List.foldl_append, List.foldl_cons, List.foldl_cons]
  have hx : (u.foldl elfStep 0).toNat < 2 ^ 28 := foldl_lt _ _ elfStep_lt u 0 (by decide)
  generalize u.foldl elfStep 0 = x at hx
  have ha := elfStep_split x hx a
  have hb := elfStep_split x hx b
  have hla := elfStep_lt x a
  have hlb := elfStep_lt x b
  have n1 := lift_near a b
  have n2 := lift_near b a
  cases v with
  | nil =>
    intro e
    have e := congrArg UInt32.toNat e
    simp only [List.foldl_nil] at e
    rw [ha, hb] at e
    have := turn_diff (z := x.toNat / 16) (e := x.toNat % 16 + lift a) (e' := x.toNat % 16 + lift b) (by omega) (by omega) (by omega)
    exact hab (lift_char (by omega) (by omega))
  | cons c v =>
    have hc := elfStep_split _ hla c
    have hd := elfStep_split _ hlb c
    refine elf_tail v _ _ (elfStep_lt _ c) (elfStep_lt _ c) ?_ ?_
    · rw [hc, hd]; omega
    · intro e
      have e := congrArg UInt32.toNat e
      rw [hc, hd, ha, hb] at e
      have t1 := turn_lt (x.toNat / 16) (x.toNat % 16 + lift a)
      have t2 := turn_lt (x.toNat / 16) (x.toNat % 16 + lift b)
      generalize hA : turn (x.toNat / 16) (x.toNat % 16 + lift a) = p at e t1
      generalize hB : turn (x.toNat / 16) (x.toNat % 16 + lift b) = q at e t2
      rw [show (16 * p + a.toNat % 16) / 16 = p by omega, show (16 * q + b.toNat % 16) / 16 = q by omega,
        show (16 * p + a.toNat % 16) % 16 = a.toNat % 16 by omega, show (16 * q + b.toNat % 16) % 16 = b.toNat % 16 by omega, ← hA, ← hB] at e
      have := turn_turn (z := x.toNat / 16) (e := x.toNat % 16 + lift a) (e' := x.toNat % 16 + lift b) (f := a.toNat % 16 + lift c)
        (f' := b.toNat % 16 + lift c) (by omega) (by omega) (by omega) (by omega) (by omega)
      exact hab (lift_char (by omega) (by omega))

theorem pjw_eq_elf (s : List UInt8) : pjw s = elf s := by
  unfold pjw elf
  have : pjwStep = elfStep := by funext h c; exact pjw_eq_elf_step h c
  rw [this]

end Eni.Hasher
