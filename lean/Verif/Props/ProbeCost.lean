import Verif.Proofs.ProbeCost
/-! # C107: storing the members of an object takes work proportional to the text -/
namespace Eni
namespace Props
open Json Spec

/-- C107, the counting parser is the parser of C23 to C32. -/
theorem C107_same (L : Layout) (s : Bytes) : parse L s = (parseP L s >>= fun x => .ok x.1) := parseP_fst L s

/-- C107, one insertion: inserting a key into a table that has been filled by insertions looks at no more buckets than the table has entries, plus one,
whatever the hash function. -/
theorem C107_insert_partial {K V : Type} [DecidableEq K] (hash : K → UInt32) {t : Table (K × V)} (C : Table.Counted t) (k : K) (v : V) {x : Table (K × V) × Nat × Bool} {c : Nat}
    (e : Table.insertCnt hash (fun kv => some kv.1) t k (k, v) = .ok (x, c)) : c ≤ t.ne + t.nt + 1 :=
  Table.insertCnt_le C (fun kv => ⟨kv.1, rfl⟩) e

/-- C107, what holds: for every text the parser returns, and the buckets it has looked at are at most half of the square of the length of the text. Missing: a
bound proportional to the length, which is false (`C107_linear_false`). -/
theorem C107_bound_partial (L : Layout) (s : Bytes) (hlen : s.length ≤ 1073643498) :
    ∃ b x c, parseP L s = .ok (⟨b, x⟩, c) ∧ 2 * c ≤ s.length * (s.length + 1) := by
  have hr : ∃ b x, parse L s = .ok ⟨b, x⟩ := by
    rcases parse_post L s hlen with ⟨_, _, _, _, x, h, _⟩ | h
    · exact ⟨true, x, h⟩
    · exact ⟨false, _, h⟩
  obtain ⟨b, x, hr⟩ := hr
  rw [parseP_fst] at hr
  obtain ⟨⟨⟨b, x⟩, c⟩, e, _⟩ := Res.bind_eq_ok.mp hr
  exact ⟨b, x, c, e, parseP_le L s hlen e⟩

/-- C107, the cost of collisions: an object with `n` integer members whose names are distinct and have the same hash value takes exactly `n (n + 1) / 2` looks at
buckets, in any memory layout, whatever surrounds the text. -/
theorem C107_collisions (L : Layout) (w t r : Bytes) (ms : List (Bytes × JV)) (hw : WS w) (ht : JText t (.obj ms)) (hint : ∀ k j, (k, j) ∈ ms → ∃ z, j = .int z)
    (hnd : (ms.map Prod.fst).Nodup) (H : UInt32) (hk : ∀ k j, (k, j) ∈ ms → k.length < 65536 ∧ Hasher.sdbm k = H) (hl : ms.length ≤ 1073643498) :
    ∃ x c, parseP L (w ++ (t ++ r)) = .ok (⟨true, x⟩, c) ∧ 2 * c = ms.length * (ms.length + 1) :=
  parseP_crowded L hw ht (fun kj h => hint kj.1 kj.2 h) hnd H (fun kj h => hk kj.1 kj.2 h) hl

/-- C107, such texts are easily made: the `2^m` names that consist of `m` words `bbb0` and `AaAo`. -/
theorem C107_crowd_false (L : Layout) (m : Nat) (hm : m ≤ 29) :
    (crowdText (crowdKeys m)).length = 2 ^ m * (4 * m + 5) + 1 ∧
    ∃ x c, parseP L (crowdText (crowdKeys m)) = .ok (⟨true, x⟩, c) ∧ 2 * c = 2 ^ m * (2 ^ m + 1) := by
  have hne : crowdKeys m ≠ [] := by
    intro h
    have := crowdKeys_length m
    rw [h] at this
    have : 0 < 2 ^ m := Nat.two_pow_pos m
    simp only [List.length_nil] at *
    omega
  have h2 : 2 ^ m ≤ 2 ^ 29 := Nat.pow_le_pow_right (by omega) hm
  constructor
  · have := crowdMembers_length (4 * m) (crowdKeys m) hne (fun k hk => (crowdKeys_bytes m k hk).1)
    rw [crowdKeys_length] at this
    simp only [crowdText, List.length_cons, List.length_append, List.length_nil]
    omega
  · obtain ⟨k0, hk0⟩ := List.exists_mem_of_ne_nil _ hne
    have ht := crowdMembers_text (crowdKeys m) hne (fun k hk => (crowdKeys_bytes m k hk).2)
    have := C107_collisions L [] (crowdText (crowdKeys m)) [] _ (by simp [WS]) (.obj ht) (by
        intro k j hkj
        obtain ⟨k', _, h⟩ := List.mem_map.mp hkj
        simp only [Prod.mk.injEq] at h
        exact ⟨_, h.2.symm⟩) (by
        rw [List.map_map]
        have : (Prod.fst ∘ fun k : Bytes => (k, JV.int (wrap256 0))) = id := rfl
        rw [this, List.map_id]
        exact crowdKeys_nodup m) (Hasher.sdbm k0) (by
        intro k j hkj
        obtain ⟨k', hk', h⟩ := List.mem_map.mp hkj
        simp only [Prod.mk.injEq] at h
        rw [← h.1]
        refine ⟨?_, crowdKeys_hash m k' hk' k0 hk0 0⟩
        have := (crowdKeys_bytes m k' hk').1
        omega) (by rw [List.length_map, crowdKeys_length]; omega)
    rw [List.length_map, crowdKeys_length, List.nil_append, List.append_nil] at this
    exact this

/-- C107 is false of the code: whatever factor up to two millions is allowed, there is a text (an object with 2^29 members, about 65 GB) that takes more looks at buckets than that
factor times its length. -/
theorem C107_linear_false (L : Layout) (f : Nat) (hf : f ≤ 2000000) : ∃ s x c, parseP L s = .ok (x, c) ∧ f * s.length < c := by
  obtain ⟨h1, x, c, h2, h3⟩ := C107_crowd_false L 29 (by omega)
  refine ⟨_, _, c, h2, ?_⟩
  rw [h1]
  have : f * (2 ^ 29 * (4 * 29 + 5) + 1) ≤ 2000000 * (2 ^ 29 * (4 * 29 + 5) + 1) := Nat.mul_le_mul_right _ hf
  omega

/-- C107 is false of the code for texts of less than a gigabyte, with factors up to 43000. -/
theorem C107_gigabyte_false (L : Layout) (f : Nat) (hf : f ≤ 43000) : ∃ s x c, s.length ≤ 813694977 ∧ parseP L s = .ok (x, c) ∧ f * s.length < c := by
  obtain ⟨h1, x, c, h2, h3⟩ := C107_crowd_false L 23 (by omega)
  refine ⟨_, _, c, by rw [h1]; omega, h2, ?_⟩
  rw [h1]
  have : f * (2 ^ 23 * (4 * 23 + 5) + 1) ≤ 43000 * (2 ^ 23 * (4 * 23 + 5) + 1) := Nat.mul_le_mul_right _ hf
  omega

/-- the four names of length eight -/
example : crowdKeys 2 = [[98, 98, 98, 48, 98, 98, 98, 48], [98, 98, 98, 48, 65, 97, 65, 111], [65, 97, 65, 111, 98, 98, 98, 48], [65, 97, 65, 111, 65, 97, 65, 111]] ∧
    crowdText [[97], [98]] = [123, 34, 97, 34, 58, 48, 44, 34, 98, 34, 58, 48, 125] := by decide

/-- `{"bbb0":0,"AaAo":0}` takes three looks, `{"a":0,"b":0}` two -/
example : (match parseP ⟨100, 0, 10⟩ (crowdText (crowdKeys 1)) with | .ok x => some x.2 | _ => none) = some 3 ∧
    (match parseP ⟨100, 0, 10⟩ (crowdText [[97], [98]]) with | .ok x => some x.2 | _ => none) = some 2 := by decide +kernel

/-- a table as in `C107_insert_partial`: two looks at a table with one entry -/
example : ∃ t : Table (Nat × Nat), Table.Counted t ∧ t.ne = 1 ∧
    (match Table.insertCnt (fun k => k.toUInt32) (fun kv : Nat × Nat => some kv.1) t 20 (20, 7) with | .ok x => some x.2 | _ => none) = some 2 := by
  have W := (Table.initTable_wf (E := Nat × Nat) (K := Nat) (n := 16) (fun k => k.toUInt32) (fun kv => some kv.1) (by decide)).1
  rcases Table.insertE_counted (hash := fun k : Nat => k.toUInt32) (keyOf := fun kv : Nat × Nat => some kv.1) W.counted (fun kv => ⟨kv.1, rfl⟩) (by decide) 3 (3, 5) with
    ⟨i, b, e, h, _⟩ | ⟨i, t', h, C', _⟩
  · refine absurd (congrArg (fun r : Res (Table (Nat × Nat) × Nat × Bool) => match r with | .ok x => x.2.2 | _ => false) h) ?_
    show ¬ _ = true
    decide +kernel
  · refine ⟨t', C', ?_, ?_⟩
    · have := congrArg (fun r : Res (Table (Nat × Nat) × Nat × Bool) => match r with | .ok x => x.1.ne | _ => 0) h
      simp only at this
      rw [← this]
      decide +kernel
    · have := congrArg (fun r : Res (Table (Nat × Nat) × Nat × Bool) => match r with
        | .ok x => (match Table.insertCnt (fun k : Nat => k.toUInt32) (fun kv : Nat × Nat => some kv.1) x.1 20 (20, 7) with | .ok x => some x.2 | _ => none) | _ => none) h
      simp only at this
      rw [← this]
      decide +kernel

end Props
end Eni
