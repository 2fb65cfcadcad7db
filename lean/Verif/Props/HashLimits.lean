import Verif.Proofs.HashLimits
import Verif.Props.HashTable
/-!
# Properties C77, C78: the initial size of a `HashTable` and its growth

The counters of a table are 32-bit numbers, the argument of the constructor a `size_t`.
-/
namespace Eni.Props
open Spec HashTable
variable {K V : Type} [DecidableEq K]

/-- C77, what holds: two tables whose initial sizes are, reduced to 32 bits, at most 1431524664 or above 4294836195 report the same for
every history, and every lookup gives the same afterwards. Missing: the sizes in between - false, see below. -/
theorem C77_sizes_partial (hash : K → UInt32) (dflt : V) (size1 size2 : Nat) (ops : List (TOp K V))
    (hs1 : size1 % 4294967296 ≤ 1431524664 ∨ 4294836195 < size1 % 4294967296)
    (hs2 : size2 % 4294967296 ≤ 1431524664 ∨ 4294836195 < size2 % 4294967296) (hp : TPres dflt [] ops) :
    ∃ h1 t1 h2 t2 rs, runOps hash dflt Heap.empty (Table.new size1) ops = .ok (h1, t1, rs) ∧
      runOps hash dflt Heap.empty (Table.new size2) ops = .ok (h2, t2, rs) ∧ t1.ne = t2.ne ∧
      ∀ k, ∃ v, lookup hash h1 t1 k = .ok v ∧ lookup hash h2 t2 k = .ok v := by
  obtain ⟨h1, t1, e1, R1, _⟩ := runOps_sim (dflt := dflt) ops _ _ _ (new_rel_w32 hash hs1) empty_fresh (by simp) hp
  obtain ⟨h2, t2, e2, R2, _⟩ := runOps_sim (dflt := dflt) ops _ _ _ (new_rel_w32 hash hs2) empty_fresh (by simp) hp
  exact ⟨h1, t1, h2, t2, _, e1, e2, by rw [R1.ne_eq, R2.ne_eq], fun k => ⟨_, lookup_sim R1 k, lookup_sim R2 k⟩⟩

example : (8 : Nat) % 4294967296 ≤ 1431524664 ∨ 4294836195 < (8 : Nat) % 4294967296 := by omega
example : (4294967295 : Nat) % 4294967296 ≤ 1431524664 ∨ 4294836195 < (4294967295 : Nat) % 4294967296 := by omega
example : TPres 0 ([] : FMap Nat Nat) [.assign 1 2, .erase 1, .find 3] := by
  simp [TPres, TPre, tstep, FMap.set, FMap.erase]

/-- C77 is false of the code: for the initial size 4294836195 = 2^32 - 131101 the number of buckets wraps to 0, and the first search or
insertion, of whatever key, divides by zero. -/
theorem C77_no_buckets_false (hash : K → UInt32) (dflt : V) (k : K) :
    runOps hash dflt Heap.empty (Table.new 4294836195) [.find k] = .ub .divZero ∧
    runOps hash dflt Heap.empty (Table.new 4294836195) [.insert k] = .ub .divZero ∧
    runOps hash dflt Heap.empty (Table.new 4294836195) [.erase k] = .ub .divZero ∧
    runOps hash dflt Heap.empty (Table.new 8) [.find k] = .ok (Heap.empty, Table.new 8, [.found none]) := by
  have ht : (Table.new 4294836195 : Table Nat) = ⟨true, [], 0, 0, 0⟩ := by
    have hc : Table.computeBucketSize 4294836195 = 0 := by decide
    show (Table.initTable 4294836195 : Table Nat) = _
    unfold Table.initTable
    rw [if_pos (by omega), hc]
    rfl
  rw [ht]
  refine ⟨rfl, rfl, rfl, ?_⟩
  obtain ⟨h, t, h1, R, _⟩ := runOps_sim (hash := hash) (dflt := dflt) ([] : List (TOp K V)) _ _ _ (new_rel hash (n := 8) (by omega)) empty_fresh
    (by simp) trivial
  have hl := lookup_sim (new_rel (V := V) hash (n := 8) (by omega)) k
  simp only [FMap.lookup, List.find?_nil, Option.map_none] at hl
  simp [runOps, step, hl]

/-- C77 is false of the code: with the initial size 2^31 there are 2147614749 buckets. A key whose home position is 2^31 or later can be
inserted, and erasing it again leaves the bucket array: the position is returned as a negative `int`. -/
theorem C77_negative_index_false (hash : K → UInt32) (dflt : V) (k : K) (hk : 2147483648 ≤ (hash k).toNat % 2147614749) :
    runOps hash dflt Heap.empty (Table.new 2147483648) [.insert k, .erase k] = .ub .outOfBounds ∧
    ∃ h t, runOps hash dflt Heap.empty (Table.new 2147483648) [.insert k] = .ok (h, t, [.inserted false dflt]) := by
  have hc : Table.computeBucketSize 2147483648 = 2147614749 := by decide
  have ht : (Table.new 2147483648 : Table Nat) = ⟨true, List.replicate 2147614749 Bucket.zero, 2147614749, 0, 0⟩ := by
    show (Table.initTable 2147483648 : Table Nat) = _
    unfold Table.initTable
    rw [if_pos (by omega), hc]
  rw [ht]
  generalize hN : (2147614749 : Nat) = N at *
  have hng : 4 ≤ w32 (N * 3) := by subst hN; decide
  have hpos : 0 < N := by omega
  have hi := insert_single (E := Nat) hash (Heap.empty : Heap K V).keyOf hpos hng k 0
  have hkey : (Heap.alloc (Heap.empty : Heap K V) k dflt).1.keyOf 0 = some k := by simp [Heap.keyOf, Heap.alloc, Heap.empty]
  have hf := find_single (E := Nat) hash (Heap.alloc (Heap.empty : Heap K V) k dflt).1.keyOf hpos hkey
  have hs : step hash dflt Heap.empty ⟨true, List.replicate N Bucket.zero, N, 0, 0⟩ (.insert k) =
      .ok ((Heap.alloc (Heap.empty : Heap K V) k dflt).1, ⟨true, single N (hash k) 0, N, 1, 0⟩, .inserted false dflt) := by
    simp only [step, HashTable.insert]
    rw [show (Heap.alloc (Heap.empty : Heap K V) k dflt).2 = 0 from rfl, hi]
    simp [Heap.getVal, Heap.alloc, Heap.empty]
  constructor
  · simp only [runOps, hs, Res.ok_bind]
    simp only [step, HashTable.erase, Table.eraseE, hf, Res.ok_bind, if_neg (Nat.not_lt.mpr hk)]
    rfl
  · exact ⟨(Heap.alloc (Heap.empty : Heap K V) k dflt).1, ⟨true, single N (hash k) 0, N, 1, 0⟩, by simp only [runOps, hs, Res.ok_bind]⟩

example : 2147483648 ≤ ((fun k : Nat => UInt32.ofNat k) 2147483648).toNat % 2147614749 := by decide

/-- inserting distinct keys, seen by a finite map -/
theorem truns_inserts (dflt : V) : ∀ (new : List K) (m : FMap K V), (new.reverse ++ m.map Prod.fst).Nodup →
    (truns dflt m (new.map .insert)).2 = new.map (fun _ => .inserted false dflt) ∧
    (truns dflt m (new.map .insert)).1 = new.reverse.map (fun k => (k, dflt)) ++ m := by
  intro new
  induction new with
  | nil => intro m _; exact ⟨rfl, rfl⟩
  | cons k new ih =>
    intro m hnd
    rw [List.reverse_cons, List.append_assoc] at hnd
    have hk : m.lookup k = none := by
      rw [FMap.lookup_none_iff]
      intro v hm
      have := (List.nodup_append.mp hnd).2.1
      simp only [List.singleton_append, List.nodup_cons] at this
      exact this.1 (List.mem_map.mpr ⟨_, hm, rfl⟩)
    have h1 := ih ((k, dflt) :: m) hnd
    simp only [List.map_cons, truns, tstep, hk]
    refine ⟨by rw [h1.1], ?_⟩
    rw [h1.2]; simp

/-- C78, what holds: inserting up to 1073643498 distinct keys, starting from any initial size up to 1431524664, reports each of them as
new; afterwards exactly these keys are found, and there still is room. Missing: more keys - false, see below. -/
theorem C78_grows_partial (hash : K → UInt32) (dflt : V) (size : Nat) (ks : List K) (hs : size ≤ 1431524664) (hnd : ks.Nodup)
    (hl : ks.length ≤ 1073643498) :
    ∃ h t, runOps hash dflt Heap.empty (Table.new size) (ks.map .insert) = .ok (h, t, ks.map fun _ => .inserted false dflt) ∧
      (∀ k ∈ ks, lookup hash h t k = .ok (some dflt)) ∧ (∀ k, k ∉ ks → lookup hash h t k = .ok none) ∧
      t.ne = ks.length ∧ (ks ≠ [] → 4 * ks.length ≤ 3 * t.nb) := by
  have hr : ∀ n, (TOp.rehashN n : TOp K V) ∉ ks.map .insert := by simp
  have hp := C01_limits (V := V) dflt (ks.map .insert) (by simpa using hl) hr
  obtain ⟨h, t, h1, h2, h3, h4⟩ := C01_finite_map hash dflt size (ks.map .insert) hs hp
  obtain ⟨h', t', rs, e1, e2⟩ := C05_load hash dflt size (ks.map .insert) hs hp hr
  rw [h1] at e1
  cases e1
  have ht := truns_inserts dflt ks [] (by simpa using hnd)
  rw [ht.1] at h1
  rw [ht.2] at h2 h3 h4
  simp only [List.append_nil] at h2 h3 h4
  simp only [List.length_map, List.length_reverse] at h3
  refine ⟨h, t, h1, ?_, ?_, h3, ?_⟩
  · intro k hk
    rw [h2, FMap.lookup_of_mem h4 (List.mem_map.mpr ⟨k, List.mem_reverse.mpr hk, rfl⟩)]
  · intro k hk
    rw [h2, FMap.lookup_none_iff.mpr]
    intro v hm
    obtain ⟨k', hm1, hm2⟩ := List.mem_map.mp hm
    simp only [Prod.mk.injEq] at hm2
    exact hk (by rw [← hm2.1]; exact List.mem_reverse.mp hm1)
  · intro hne
    have : 0 < ks.length := List.length_pos_iff.mpr hne
    rcases e2 with ⟨e2, e3⟩ | ⟨e2, e3, e4⟩
    · omega
    · omega

example : [3, 20, 37, 4].Nodup ∧ [3, 20, 37, 4].length ≤ 1073643498 := by decide

/-- C78 is false of the code: a table with the initial size 1431524664 has 1431655765 buckets and never grows, because three times this
number is 2^32 - 1. Every one of 1431655765 distinct keys is inserted and reported as new; after that searching or inserting any other key
never returns. -/
theorem C78_stuck_false (hash : K → UInt32) (dflt : V) (ks : List K) (hnd : ks.Nodup) (hl : ks.length = 1431655765) :
    ∃ h t, runOps hash dflt Heap.empty (Table.new 1431524664) (ks.map .insert) = .ok (h, t, ks.map fun _ => .inserted false dflt) ∧
      ∀ k, k ∉ ks → lookup hash h t k = .diverge ∧ insert hash dflt h t k = .diverge := by
  obtain ⟨h, t, h1, S⟩ := (stuck_new (V := V) hash).inserts dflt ks (by simpa using hnd) (by simp [hl])
  refine ⟨h, t, h1, fun k hk => ?_⟩
  rw [List.append_nil] at S
  have hno := S.absent (by simpa using hk : k ∉ ks.reverse)
  have hne := S.ne
  have hnb := S.nb
  rw [List.length_reverse] at hne
  have hfull : t.nb ≤ t.entries.length := by rw [← S.wf.ne_eq]; omega
  have hf := find_full S.wf.init S.wf.len S.wf.lay hfull S.wf.pos hno
  have hi := insert_full S.wf.init S.wf.len S.wf.lay hfull S.wf.pos hno h.next
  constructor
  · simp [lookup, find, hf]
  · simp [HashTable.insert, Heap.alloc, hi]

example : (List.range 1431655765).Nodup ∧ (List.range 1431655765).length = 1431655765 ∧ 1431655765 ∉ List.range 1431655765 :=
  ⟨List.nodup_range, List.length_range, by simp⟩

end Eni.Props
