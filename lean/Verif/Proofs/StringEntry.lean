import Verif.Model.StringEntry
/-!
# The storage of a `StringMap` entry

Helper lemmas, no property statements.
-/
namespace Eni
namespace StringEntry

theorem le_roundUp (n a : Nat) (ha : 0 < a) : n ≤ roundUp n a := by
  unfold roundUp
  have h1 := Nat.div_add_mod (n + a - 1) a
  have h2 := Nat.mod_lt (n + a - 1) ha
  rw [Nat.mul_comm] at h1
  omega

theorem roundUp_lt (n a : Nat) (ha : 0 < a) : roundUp n a < n + a := by
  unfold roundUp
  have h1 := Nat.div_mul_le_self (n + a - 1) a
  omega

theorem write_ok {b : Block} {off : Nat} {bs : Bytes} (h : off + bs.length ≤ b.length) :
    ∃ b', write b off bs = .ok b' ∧ b'.length = b.length ∧
      (∀ i, i < off → b'[i]? = b[i]?) ∧ (∀ i (_ : i < bs.length), b'[off + i]? = some (some bs[i])) ∧
      (∀ i, off + bs.length ≤ i → b'[i]? = b[i]?) := by
  refine ⟨_, by unfold write; rw [if_pos h], by simp; omega, ?_, ?_, ?_⟩
  · intro i hi
    rw [List.append_assoc, List.getElem?_append_left (by simp; omega), List.getElem?_take_of_lt hi]
  · intro i hi
    rw [List.getElem?_append_left (by simp; omega), List.getElem?_append_right (by simp; omega)]
    simp only [List.length_take, Nat.min_eq_left (show off ≤ b.length by omega), Nat.add_sub_cancel_left, List.getElem?_map,
      List.getElem?_eq_getElem hi, Option.map_some]
  · intro i hi
    rw [List.getElem?_append_right (by simp; omega), List.getElem?_drop]
    congr 1
    simp
    omega

theorem touch_ok {n : Nat} : ∀ (ws : List (Nat × Bytes)) (b : Block), (∀ w ∈ ws, w.1 + w.2.length ≤ n) → n ≤ b.length →
    ∃ b', ws.foldlM (fun b w => write b w.1 w.2) b = Res.ok b' ∧ b'.length = b.length ∧ ∀ i, n ≤ i → b'[i]? = b[i]? := by
  intro ws
  induction ws with
  | nil => intro b _ _; exact ⟨b, rfl, rfl, fun _ _ => rfl⟩
  | cons w ws ih =>
    intro b hw hn
    have h1 := hw w (by simp)
    obtain ⟨b1, e1, l1, _, _, g1⟩ := write_ok (b := b) (off := w.1) (bs := w.2) (by omega)
    obtain ⟨b2, e2, l2, g2⟩ := ih b1 (fun x hx => hw x (by simp [hx])) (by omega)
    refine ⟨b2, ?_, by omega, fun i hi => by rw [g2 i hi, g1 i (by omega)]⟩
    rw [List.foldlM_cons, e1, Res.ok_bind, e2]

theorem read_ok : ∀ (n : Nat) (b : Block) (off : Nat) (bs : Bytes), bs.length = n → (∀ i (_ : i < bs.length), b[off + i]? = some (some bs[i])) →
    read b off n = .ok bs := by
  intro n
  induction n with
  | zero => intro b off bs hl _; rw [List.length_eq_zero_iff.mp hl]; rfl
  | succ n ih =>
    intro b off bs hl h
    cases bs with
    | nil => simp at hl
    | cons c cs =>
      have h0 := h 0 (by simp)
      simp only [Nat.add_zero, List.getElem_cons_zero] at h0
      simp only [read, h0]
      rw [ih b (off + 1) cs (by simpa using hl) ?_]
      · rfl
      · intro i hi
        have := h (i + 1) (by simpa using hi)
        simp only [List.getElem_cons_succ] at this
        rw [← this]
        congr 1
        omega

theorem entry_spec (l : Lay) (hl : l.vsize < 4611686018427387904) (ha : l.valign < 4611686018427387904) {dflt ws : List (Nat × Bytes)}
    (hd : ∀ w ∈ dflt, w.1 + w.2.length ≤ l.vsize) (hw : ∀ w ∈ ws, w.1 + w.2.length ≤ l.vsize) {k : Bytes}
    (hk : k.length < 4611686018427387904) : ∃ b, entry l dflt ws k = .ok (b, k.take (k.length % 65536)) := by
  have o1 := le_roundUp l.vsize 2 (by omega)
  have o2 := roundUp_lt l.vsize 2 (by omega)
  have o3 := le_roundUp l.offKey (max l.valign 2) (by omega)
  have o4 := roundUp_lt l.offKey (max l.valign 2) (by omega)
  change l.vsize ≤ l.offLen at o1
  change l.offLen < _ at o2
  change l.offKey ≤ l.size at o3
  change l.size < _ at o4
  have o5 : l.offKey = l.offLen + 2 := rfl
  have hsz : (allocate l k).length = l.size + k.length + 1 := by
    unfold allocate w64
    rw [List.length_replicate]
    omega
  obtain ⟨b1, e1, l1, _⟩ := touch_ok dflt (allocate l k) hd (by omega)
  obtain ⟨b2, e2, l2, f2, g2, h2⟩ := write_ok (b := b1) (off := l.offLen)
    (bs := [(k.length % 65536 % 256).toUInt8, (k.length % 65536 / 256).toUInt8]) (by simp; omega)
  obtain ⟨b3, e3, l3, f3, g3, h3⟩ := write_ok (b := b2) (off := l.offKey) (bs := k) (by omega)
  obtain ⟨b4, e4, l4, f4, g4, h4⟩ := write_ok (b := b3) (off := l.offKey + k.length) (bs := [0]) (by simp; omega)
  obtain ⟨b5, e5, l5, g5⟩ := touch_ok ws b4 hw (by omega)
  refine ⟨b5, ?_⟩
  have r1 : read b5 l.offLen 2 = .ok [(k.length % 65536 % 256).toUInt8, (k.length % 65536 / 256).toUInt8] := by
    refine read_ok 2 b5 l.offLen _ rfl ?_
    intro i hi
    have hi' : i < 2 := by simpa using hi
    rw [g5 _ (by omega), f4 _ (by omega), f3 _ (by omega), g2 i hi]
  have hn : ((k.length % 65536 % 256).toUInt8).toNat + 256 * ((k.length % 65536 / 256).toUInt8).toNat = k.length % 65536 := by
    have h1 : ∀ m, m < 256 → (m.toUInt8).toNat = m := fun m hm => by
      rw [show m.toUInt8 = UInt8.ofNat m from rfl, UInt8.toNat_ofNat']
      exact Nat.mod_eq_of_lt hm
    rw [h1 _ (by omega), h1 _ (by omega)]
    omega
  have r2 : read b5 l.offKey (k.length % 65536) = .ok (k.take (k.length % 65536)) := by
    have hle : k.length % 65536 ≤ k.length := Nat.mod_le _ _
    refine read_ok _ b5 l.offKey _ (by simp; omega) ?_
    intro i hi
    have hi' : i < k.length := by simp at hi; omega
    rw [g5 _ (by omega), f4 _ (by omega), g3 i hi', List.getElem_take]
  simp only [entry, construct, e1, Res.ok_bind, e2, e3, e4, touch, e5, key, r1, hn, r2]

end StringEntry
end Eni
