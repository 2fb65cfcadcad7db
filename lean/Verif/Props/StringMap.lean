import Verif.Proofs.StringMap
import Verif.Proofs.Hasher
/-!
# Properties C11-C14, C58, C59: `StringMap` and the string hashers
-/
namespace Eni.Props
open Spec
variable {V : Type}

/-- C11. Every history of a `StringMap` over keys of at most 65535 bytes gives exactly the reports of a finite map: values read,
exceptions thrown, erasures, `find` and `size()`. Afterwards `at` and `size` agree with the map for every key. -/
theorem C11_string_map (dflt : V) (size : Nat) (ops : List (SOp V)) (hs : size ≤ 1431524664) (hl : ops.length ≤ 1073643498)
    (hk : ∀ op ∈ ops, (skey op).length ≤ 65535) :
    ∃ t, SMap.run dflt (SMap.new size) ops = .ok (t, (sruns dflt [] ops).2) ∧
      (∀ k, SMap.at_ t k = match (sruns dflt [] ops).1.lookup k with | some v => .ok v | none => .throw .invalidStringMapKey) ∧
      SMap.size t = (sruns dflt [] ops).1.length ∧ (sruns dflt [] ops).1.Functional := by
  obtain ⟨t, h1, hin, R, hle⟩ := SMap.run_sim (dflt := dflt) ops _ _ (SRel.new hs) (by simpa using hl)
    (fun op ho => by have := hk op ho; omega)
  exact ⟨t, h1, fun k => SMap.at_sim R k, R.ne_eq, R.functional⟩

/-- a concrete history: assignment, overwriting, default insertion, erasure, failing lookup -/
example : ∃ t, SMap.run 0 (SMap.new 8) [.assign [97] 1, .assign [97] 2, .index [98], .erase [98], .at_ [98], .at_ [97], .size]
    = .ok (t, [.done, .done, .val 0, .erased true, .thrown, .val 2, .size 1]) := by
  obtain ⟨t, h, _⟩ := C11_string_map (V := Nat) 0 8
    [.assign [97] 1, .assign [97] 2, .index [98], .erase [98], .at_ [98], .at_ [97], .size] (by decide) (by decide) (by decide)
  exact ⟨t, h⟩

/-- C12 is false of the code: whatever the history so far (over keys of at most 65535 bytes), a key of 65536 bytes or more that has
just been assigned is not found, `at` throws, and the map has grown by one entry. -/
theorem C12_long_key_false (dflt : V) (size : Nat) (ops : List (SOp V)) (hs : size ≤ 1431524664) (hl : ops.length < 1073643498)
    (hk : ∀ op ∈ ops, (skey op).length ≤ 65535) (k : Bytes) (hlong : 65536 ≤ k.length) (v : V) :
    ∃ t rs t', SMap.run dflt (SMap.new size) ops = .ok (t, rs) ∧ SMap.assign t k v = .ok (t', false) ∧
      SMap.find t' k = .ok none ∧ SMap.at_ t' k = .throw .invalidStringMapKey ∧ SMap.size t' = SMap.size t + 1 := by
  obtain ⟨t, h1, hin, R, hle⟩ := SMap.run_sim (dflt := dflt) ops _ _ (SRel.new hs) (by simp; omega)
    (fun op ho => by have := hk op ho; omega)
  obtain ⟨t', h2, h3, h4⟩ := SMap.assign_long R (by simp at hle; omega) hlong v
  refine ⟨t, _, t', h1, h2, h4, by simp [SMap.at_, h4], ?_⟩
  rw [h3, SMap.size, R.ne_eq]

/-- such keys exist -/
example : 65536 ≤ (List.replicate 65536 (97 : UInt8)).length := Nat.le_of_eq List.length_replicate.symm

/-- C12, the part that holds: keys of at most 65535 bytes are found again with the value assigned, and the map grows only if
the key was absent. -/
theorem C12_assigned_found_partial (dflt : V) (size : Nat) (ops : List (SOp V)) (hs : size ≤ 1431524664)
    (hl : ops.length < 1073643498) (hk : ∀ op ∈ ops, (skey op).length ≤ 65535) (k : Bytes) (hshort : k.length ≤ 65535) (v : V) :
    ∃ t rs t' b, SMap.run dflt (SMap.new size) ops = .ok (t, rs) ∧ SMap.assign t k v = .ok (t', b) ∧
      SMap.find t' k = .ok (some v) ∧
      ((∃ w, SMap.find t k = .ok (some w)) ∧ SMap.size t' = SMap.size t ∨
       SMap.find t k = .ok none ∧ SMap.size t' = SMap.size t + 1) := by
  obtain ⟨t, h1, hin, R, hle⟩ := SMap.run_sim (dflt := dflt) ops _ _ (SRel.new hs) (by simp; omega)
    (fun op ho => by have := hk op ho; omega)
  have hlen : (sruns dflt [] ops).1.length < 1073643498 := by simp at hle; omega
  obtain ⟨t', h2, _, R'⟩ := SMap.assign_sim R hlen (by omega : k.length < 65536) v
  refine ⟨t, _, t', _, h1, h2, ?_, ?_⟩
  · rw [SMap.find_sim R' k, FMap.lookup_set]; simp
  · rw [SMap.find_sim R k, SMap.size, SMap.size, R.ne_eq, R'.ne_eq]
    cases hlk : (sruns dflt [] ops).1.lookup k with
    | none => right; exact ⟨rfl, by rw [FMap.set, FMap.erase_of_none hlk]; rfl⟩
    | some w =>
      left
      refine ⟨⟨w, rfl⟩, ?_⟩
      have := (FMap.perm_erase R.functional hlk).length_eq
      rw [this]; rfl

example := C12_assigned_found_partial (0 : Nat) 8 [.assign [97] 1, .erase [97]] (by decide) (by decide) (by decide) [98] (by decide) 5

/-- C13. ELF and PJW hash values are below 2^28 for every byte string. -/
theorem C13_elf_pjw_range (s : List UInt8) : (Hasher.elf s).toNat < 2 ^ 28 ∧ (Hasher.pjw s).toNat < 2 ^ 28 :=
  ⟨Hasher.foldl_lt _ _ Hasher.elfStep_lt s 0 (by decide), Hasher.foldl_lt _ _ Hasher.pjwStep_lt s 0 (by decide)⟩

/-- C13. The ES hasher is total on 7-bit strings; on any string with a byte from 128 on that comes before the end it calls `isdigit` with
a negative argument (undefined behaviour). -/
theorem C13_es_total (s : List UInt8) : (Ascii s → ∃ r, Hasher.es s = .ok r) ∧ (¬ Ascii s → Hasher.es s = .ub .outOfBounds) := by
  refine ⟨fun h => ⟨_, Hasher.es_eq s h⟩, fun h => ?_⟩
  unfold Ascii at h
  have : ∀ (s : List UInt8) st, (¬ ∀ c ∈ s, c.toNat < 128) → Hasher.esLoop st s = none := by
    intro s
    induction s with
    | nil => intro st h; simp at h
    | cons c s ih =>
      intro st h
      rw [Hasher.esLoop]
      by_cases hc : c.toNat < 128
      · obtain ⟨r, d⟩ := st
        rw [Hasher.esStep_eq r d c hc]
        apply ih
        intro h2
        apply h
        intro x hx
        rcases List.mem_cons.mp hx with rfl | hx
        · exact hc
        · exact h2 x hx
      · obtain ⟨r, d⟩ := st
        have h46 : c ≠ 46 := by rintro rfl; simp at hc
        have h128 : (128 : UInt8) ≤ c := by rw [UInt8.le_iff_toNat_le]; simp; omega
        simp only [Hasher.esStep, h46, h128, if_true, if_false]
  unfold Hasher.es
  rw [this s _ h]

/-- the bounds are not trivial: a negative char sets all high bits before they are folded away -/
example : Hasher.elf [0xff, 0x61] = 0x0ffff1a1 := by decide

/-- C14, full characterisation for 7-bit strings: `may_include` says yes exactly when every character class of the rule occurs in the
text and the number of dots modulo 16 of the rule does not exceed that of the text. -/
theorem C14_may_include_iff (rule text : List UInt8) (hr : Ascii rule) (ht : Ascii text) :
    ∃ r t, Hasher.es rule = .ok r ∧ Hasher.es text = .ok t ∧
      (Hasher.mayInclude r t = true ↔ Covers rule text ∧ dots rule % 16 ≤ dots text % 16) := Hasher.es_mayInclude rule text hr ht

example := C14_may_include_iff [97, 46] [120, 97, 46, 46] (by unfold Ascii; decide) (by unfold Ascii; decide)

/-- C14, the part that holds: a substring of a text with fewer than 16 dots is never rejected. -/
theorem C14_substring_partial (pre rule post : List UInt8) (ha : Ascii (pre ++ rule ++ post)) (hd : dots (pre ++ rule ++ post) < 16) :
    ∃ r t, Hasher.es rule = .ok r ∧ Hasher.es (pre ++ rule ++ post) = .ok t ∧ Hasher.mayInclude r t = true := by
  have hr : Ascii rule := fun c hc => ha c (by simp [hc])
  obtain ⟨r, t, h1, h2, h3⟩ := Hasher.es_mayInclude rule (pre ++ rule ++ post) hr ha
  refine ⟨r, t, h1, h2, h3.mpr ⟨fun c hc _ => ⟨c, by simp [hc], rfl⟩, ?_⟩⟩
  have : dots (pre ++ rule ++ post) = dots pre + dots rule + dots post := by simp [dots, Nat.add_assoc]
  omega

example : ∃ r t, Hasher.es [97, 46] = .ok r ∧ Hasher.es ([120] ++ [97, 46] ++ [46]) = .ok t ∧ Hasher.mayInclude r t = true :=
  C14_substring_partial [120] [97, 46] [46] (by unfold Ascii; decide) (by decide)

/-- C14 is false of the code: for every 7-bit text whose number of dots is a multiple of 16 and not zero, the rule "." occurs in it and is
rejected. -/
theorem C14_substring_false (pre post : List UInt8) (ha : Ascii (pre ++ [46] ++ post)) (hd : dots (pre ++ [46] ++ post) % 16 = 0) :
    ∃ r t, Hasher.es [46] = .ok r ∧ Hasher.es (pre ++ [46] ++ post) = .ok t ∧ Hasher.mayInclude r t = false := by
  obtain ⟨r, t, h1, h2, h3⟩ := Hasher.es_mayInclude [46] (pre ++ [46] ++ post) (by unfold Ascii; decide) ha
  refine ⟨r, t, h1, h2, ?_⟩
  rw [Bool.eq_false_iff]
  intro h
  have := (h3.mp h).2
  rw [hd] at this
  exact absurd this (by decide)

example : ∃ pre post : List UInt8, Ascii (pre ++ [46] ++ post) ∧ dots (pre ++ [46] ++ post) % 16 = 0 :=
  ⟨[], List.replicate 15 46, by unfold Ascii; decide, by decide⟩

/-- C58, the part that holds: a copy-constructed (or "move"-constructed) `StringMap` gives the same answers as the original, after any
history over keys of at most 65535 bytes, provided the original owns a bucket array. Both then go their own way: they are separate values
in the model, the separation of the entries is C06. -/
theorem C58_copy_partial (dflt : V) (size : Nat) (ops ops' : List (SOp V)) (h0 : size ≠ 0) (hs : size ≤ 1431524664)
    (hl : ops.length + ops'.length ≤ 1073643498) (hk : ∀ op ∈ ops ++ ops', (skey op).length ≤ 65535) :
    ∃ t rs t1, SMap.run dflt (SMap.new size) ops = .ok (t, rs) ∧
      (∀ k, SMap.find (SMap.copy t) k = SMap.find t k) ∧ SMap.size (SMap.copy t) = SMap.size t ∧
      SMap.run dflt (SMap.copy t) ops' = .ok (t1, (sruns dflt (sruns dflt [] ops).1 ops').2) := by
  obtain ⟨t, h1, hin, R, hle⟩ := SMap.run_sim (dflt := dflt) ops _ _ (SRel.new hs) (by simp; omega)
    (fun op ho => by have := hk op (List.mem_append_left _ ho); omega)
  have hinit : t.init = true := hin (by
    unfold SMap.new Table.new
    rw [w32_of_lt (by omega), if_pos h0]; rfl)
  have R' := SMap.copy_sim R hinit
  have hlen : (sruns dflt [] ops).1.length ≤ ops.length := by simpa using hle
  obtain ⟨t1, h2, _, _⟩ := SMap.run_sim (dflt := dflt) ops' _ _ R' (by omega)
    (fun op ho => by have := hk op (List.mem_append_right _ ho); omega)
  exact ⟨t, _, t1, h1, fun k => by rw [SMap.find_sim R k, SMap.find_sim R' k], rfl, h2⟩

example : ∃ t rs t1, SMap.run 0 (SMap.new 8) [.assign [97] 1] = .ok (t, rs) ∧
      (∀ k, SMap.find (SMap.copy t) k = SMap.find t k) ∧ SMap.size (SMap.copy t) = SMap.size t ∧
      SMap.run 0 (SMap.copy t) [.at_ [97], .at_ [98]] = .ok (t1, [.val 1, .thrown]) :=
  C58_copy_partial (V := Nat) 0 8 [.assign [97] 1] [.at_ [97], .at_ [98]] (by decide) (by decide) (by decide) (by decide)

/-- C58 is false of the code: both assignment operators of `StringMap` lack a return statement, so every assignment is undefined
behaviour, whatever the maps. -/
theorem C58_assignment_false (dst src : SMap V) : SMap.assignMap dst src = .ub .noReturn := rfl

/-- C58 is false of the code: the copy of a map constructed with size 0 cannot be used: lookups and insertions compute `% 0`. -/
theorem C58_copy_of_empty_false (k : Bytes) (v : V) :
    SMap.find (SMap.copy (SMap.new 0 : SMap V)) k = .ub .divZero ∧ SMap.assign (SMap.copy (SMap.new 0)) k v = .ub .divZero := by
  constructor <;> rfl

/-- C59. SDBM, BKDR and DJB are polynomial hashes: the hash of a concatenation is determined by the hashes of the parts and the length of
the second part. -/
theorem C59_concat (a b : List UInt8) :
    Hasher.sdbm (a ++ b) = Hasher.sdbm a * 65599 ^ b.length + Hasher.sdbm b ∧
    Hasher.bkdr (a ++ b) = Hasher.bkdr a * 131 ^ b.length + Hasher.bkdr b ∧
    Hasher.djb (a ++ b) = (Hasher.djb a - 5381) * 33 ^ b.length + Hasher.djb b := by
  refine ⟨?_, ?_, ?_⟩
  · have := Hasher.concat (fun h c => Hasher.sx c + (h <<< 6) + (h <<< 16) - h) 65599
      (fun h c => by rw [Hasher.shl6, Hasher.shl16]; grind) 0 a b
    simpa [Hasher.sdbm] using this
  · have := Hasher.concat (fun h c => h * 131 + Hasher.sx c) 131 (fun h c => rfl) 0 a b
    simpa [Hasher.bkdr] using this
  · have := Hasher.concat (fun h c => ((h <<< 5) + h) + Hasher.sx c) 33
      (fun h c => by rw [Hasher.shl5]; grind) 5381 a b
    exact this

/-- C59. Collisions extend: two keys with equal SDBM hash collide after appending any common suffix. -/
theorem C59_collisions_extend (a a' b : List UInt8) (h : Hasher.sdbm a = Hasher.sdbm a') :
    Hasher.sdbm (a ++ b) = Hasher.sdbm (a' ++ b) := by
  rw [(C59_concat a b).1, (C59_concat a' b).1, h]

end Eni.Props
