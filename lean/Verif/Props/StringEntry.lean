import Verif.Proofs.StringEntry
import Verif.Proofs.FreshValue
import Verif.Props.StringMap
/-!
# Properties C84, C85: what is stored in an entry
-/
namespace Eni.Props
open Spec StringEntry
variable {V : Type}

/-- stores inside the first `n` bytes -/
def Inside (n : Nat) (ws : List (Nat × Bytes)) : Prop := ∀ w ∈ ws, w.1 + w.2.length ≤ n

/-- C84. For every size and alignment of the value type, every key that fits into memory, whatever the constructor of the value and later
assignments write into the value: all accesses of constructing the entry and of reading its key back stay inside the block and read only
bytes that were written; the key read back is the key, cut to its length modulo 65536 - the same that the model of `StringMap` works with. -/
theorem C84_storage (l : Lay) (hl : l.vsize < 4611686018427387904) (ha : l.valign < 4611686018427387904) (dflt ws : List (Nat × Bytes))
    (hd : Inside l.vsize dflt) (hw : Inside l.vsize ws) (k : Bytes) (hk : k.length < 4611686018427387904) :
    (∃ b, entry l dflt ws k = .ok (b, k.take (k.length % 65536))) ∧
    (k.length ≤ 65535 → ∃ b, entry l dflt ws k = .ok (b, k)) ∧
    ∀ v : V, (SEntry.mk' k v).key = k.take (k.length % 65536) := by
  obtain ⟨b, hb⟩ := entry_spec l hl ha hd hw hk
  refine ⟨⟨b, hb⟩, fun h => ⟨b, ?_⟩, fun v => rfl⟩
  rw [hb, Nat.mod_eq_of_lt (by omega), List.take_length]

/-- a value of 12 bytes with alignment 4: the key begins at offset 14 of an entry of 16 bytes, inside its padding -/
example : (Lay.mk 12 4).offKey = 14 ∧ (Lay.mk 12 4).size = 16 ∧ Inside 12 [(8, [1, 2, 3, 4])] := by
  refine ⟨by decide, by decide, ?_⟩
  simp [Inside]

example : entry ⟨12, 4⟩ [(0, [5])] [(8, [1, 2, 3, 4])] [97, 98] = .ok
    ([some 5, none, none, none, none, none, none, none, some 1, some 2, some 3, some 4, some 2, some 0, some 97, some 98, some 0, none, none],
      [97, 98]) := by decide +kernel

/-- C84, the block is not larger than needed: one byte less (no room for the terminating NUL, keys that fill the padding) is too small for
values without padding. -/
theorem C84_tight (k : Bytes) (n : Nat) (hn : n ≤ k.length + 2) (hk : k.length < 4611686018427387904) :
    construct ⟨0, 1⟩ [] (List.replicate n none) k = .ub .outOfBounds ∧ ∃ b, construct ⟨0, 1⟩ [] (allocate ⟨0, 1⟩ k) k = .ok b := by
  constructor
  · simp only [construct, List.foldlM_nil]
    show (write (List.replicate n none) 0 _ >>= _) = _
    by_cases h1 : 2 ≤ n
    · obtain ⟨b1, e1, l1, _⟩ := write_ok (b := List.replicate n none) (off := 0)
        (bs := [(k.length % 65536 % 256).toUInt8, (k.length % 65536 / 256).toUInt8]) (by simp; omega)
      rw [e1, Res.ok_bind]
      show (write b1 2 k >>= _) = _
      rw [List.length_replicate] at l1
      by_cases h2 : 2 + k.length ≤ n
      · obtain ⟨b2, e2, l2, _⟩ := write_ok (b := b1) (off := 2) (bs := k) (by omega)
        rw [e2, Res.ok_bind]
        show write b2 (2 + k.length) [0] = _
        unfold write
        rw [if_neg (by simp; omega)]
      · unfold write
        rw [if_neg (by omega)]
        rfl
    · unfold write
      rw [if_neg (by simp; omega)]
      rfl
  · obtain ⟨b, hb⟩ := entry_spec ⟨0, 1⟩ (by decide) (by decide) (dflt := []) (ws := []) (by simp) (by simp) hk
    obtain ⟨b1, h1, _⟩ := Res.bind_eq_ok.mp hb
    exact ⟨b1, h1⟩

example := C84_tight [97, 98] 4 (by decide) (by decide)

/-- C85, what holds: for class types, and for scalar types if `m[k]` is only evaluated for bound keys, every history of a `StringMap` reads
only determinate values and gives the reports of a finite map in which a new key gets the value `V()`. Missing: `m[k]` of an unbound key
for scalar types - false, see below. -/
theorem C85_partial {W : Type} (kd : VKind W) (size : Nat) (ops : List (SOp W)) (hs : size ≤ 1431524664) (hl : ops.length ≤ 1073643498)
    (hk : ∀ op ∈ ops, (skey op).length ≤ 65535) (h : (∃ c, kd = .cls c) ∨ BoundReads kd.valueInit [] ops) :
    ∃ t, SMap.run kd.defaultInit (SMap.new size) (ops.map liftOp) = .ok (t, (sruns kd.valueInit [] ops).2.map liftRet) := by
  obtain ⟨t, h1, _⟩ := C11_string_map kd.defaultInit size (ops.map liftOp) hs (by simp; omega) (by
    intro op ho
    obtain ⟨o, ho', rfl⟩ := List.mem_map.mp ho
    rw [skey_lift]
    exact hk o ho')
  refine ⟨t, ?_⟩
  rw [h1]
  have := sruns_lift kd ops [] h
  rw [show liftMap ([] : FMap Bytes W) = [] from rfl] at this
  rw [this]

example : BoundReads (0 : Nat) [] [.assign [97] 1, .index [97], .erase [97], .find [97]] := by
  simp [BoundReads, sstep, FMap.set, FMap.erase, FMap.lookup]

/-- C85 is false of the code: for scalar types, after every history, `m[k]` of an unbound key gives an indeterminate value instead of the
zero of the type. -/
theorem C85_scalar_false {W : Type} (zero : W) (size : Nat) (ops : List (SOp W)) (hs : size ≤ 1431524664) (hl : ops.length < 1073643498)
    (hk : ∀ op ∈ ops, (skey op).length ≤ 65535) (k : Bytes) (hkl : k.length ≤ 65535) (hu : (sruns zero [] ops).1.lookup k = none) :
    (∃ t rs, SMap.run (VKind.scalar zero).defaultInit (SMap.new size) ((ops ++ [SOp.index k]).map liftOp) = .ok (t, rs ++ [.val none])) ∧
    ∃ rs, (sruns (VKind.scalar zero).valueInit [] (ops ++ [SOp.index k])).2 = rs ++ [.val zero] := by
  constructor
  · obtain ⟨t, h1, _⟩ := C11_string_map (VKind.scalar zero).defaultInit size ((ops ++ [SOp.index k]).map liftOp) hs (by simp; omega) (by
      intro op ho
      obtain ⟨o, ho', rfl⟩ := List.mem_map.mp ho
      rw [skey_lift]
      rcases List.mem_append.mp ho' with h | h
      · exact hk o h
      · rw [List.mem_singleton.mp h]; exact hkl)
    refine ⟨t, (sruns (VKind.scalar zero).defaultInit [] (ops.map liftOp)).2, ?_⟩
    rw [h1, List.map_append, List.map_singleton, sruns_append]
    have hb := sruns_unbound (.scalar zero) ops [] [] (fun _ => rfl) k
    rw [show (VKind.scalar zero).valueInit = zero from rfl, hu] at hb
    simp only [Option.isSome_none, Option.isSome_eq_false_iff, Option.isNone_iff_eq_none] at hb
    simp only [liftOp, sstep, hb, Option.getD_none]
    rfl
  · refine ⟨(sruns zero [] ops).2, ?_⟩
    show (sruns zero [] (ops ++ [SOp.index k])).2 = _
    rw [sruns_append]
    simp only [sstep, hu, Option.getD_none]

example : (sruns (0 : Nat) [] [.assign [97] 1, .erase [97]]).1.lookup [97] = none := by decide

end Eni.Props
