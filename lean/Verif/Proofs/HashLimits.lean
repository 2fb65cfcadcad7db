import Verif.Proofs.HashCount
/-!
# Hash tables at the limits of the 32-bit counters

Helper lemmas, no property statements.
-/
set_option linter.unusedSectionVars false
set_option linter.unusedVariables false

namespace Eni
open Spec
variable {E K V : Type} [DecidableEq K]

namespace Table

/-- Insertion of an absent key up to the call of `mayRehash`: no limit on the number of entries. -/
theorem insertE_store {hash : K → UInt32} {keyOf keyOf' : E → Option K} {t : Table E} (W : WF hash keyOf t) {k : K} {mk : E}
    (hno : ∀ e ∈ t.entries, keyOf e ≠ some k) (hcong : ∀ e ∈ t.entries, keyOf' e = keyOf e) (hmk : keyOf' mk = some k)
    (hnt0 : t.nt = 0) :
    ∃ i u, insertE hash keyOf t k mk = (mayRehash u >>= fun t' => Res.ok (t', i, false)) ∧ WF1 hash keyOf' u ∧
      u.entries.Perm (mk :: t.entries) ∧ u.nb = t.nb ∧ u.ne = t.ne + 1 ∧ u.nt = 0 := by
  have hr := W.room
  have hsm := W.small
  have hlen := W.len
  have hne_eq := W.ne_eq
  have hnt_eq := W.nt_eq
  rw [entries_eq] at hne_eq
  rw [tombs_eq] at hnt_eq
  have hroom : (ents t.buckets).length + tmb t.buckets < t.buckets.length := by omega
  rcases W.lay.lookupLoop_spec hroom (by omega) k with ⟨i, b, e, h, hi, hs, hk⟩ | ⟨_, j, b, hj, hfree, hreach, h⟩
  · exact absurd hk (hno e (mem_ents.mpr ⟨i, b, hi, hs⟩))
  · have W' := W.congr hcong
    have hno' : ∀ e ∈ ents t.buckets, keyOf' e ≠ some k := by
      intro e he; rw [hcong e he]; exact hno e he
    have hb : b.slot = .empty := by
      rcases hfree with hb | hb
      · exact hb
      · exfalso
        have : tmb t.buckets = 0 := by omega
        rw [tmb, List.countP_eq_zero] at this
        exact this b (List.mem_of_getElem? hj) (by simp [isTomb, hb])
    have hse : slotEntry b = none := by simp [slotEntry, hb]
    obtain ⟨L', hp⟩ := W'.lay.insert hj hse hreach hno' hmk
    have hjl := lt_of_get hj
    have hset2 : (t.buckets.set j { b with hash := hash k })[j]? = some { b with hash := hash k } := by
      rw [List.getElem?_set_self hjl]
    have hplen := hp.length_eq
    simp only [List.length_cons] at hplen
    have ht := tmb_set (b' := ⟨hash k, .full mk⟩) hj
    rw [hlen] at h
    have ht2 : tmb (t.buckets.set j ⟨hash k, .full mk⟩) = tmb t.buckets := by
      have e1 : isTomb b = false := by simp [isTomb, hb]
      have e2 : isTomb (⟨hash k, .full mk⟩ : Bucket E) = false := rfl
      rw [e1, e2] at ht; simpa using ht
    rw [hb] at hset2 h
    refine ⟨j, ⟨t.init, t.buckets.set j ⟨hash k, .full mk⟩, t.nb, w32 (t.ne + 1), t.nt⟩, ?_, ?_, hp, rfl, w32_of_lt (by omega), hnt0⟩
    · simp only [insertE, lookupBucketFor, if_neg (by simp [W.init] : ¬ t.init = false), if_neg (by omega : ¬ t.nb = 0), h, Res.ok_bind,
        hset2, List.set_set]
    · rw [w32_of_lt (by omega)]
      refine ⟨W.init, by simpa using hlen, L', ?_, ?_, by simp only; omega, by simp only; omega, hsm⟩
      · simp only [entries_eq]; omega
      · simp only [tombs_eq]; omega

/-- With this number of buckets the test for growth compares with 2^32 - 1 and never holds. -/
theorem mayRehash_stuck {hash : K → UInt32} {keyOf : E → Option K} {u : Table E} (W : WF1 hash keyOf u) (hnb : u.nb = 1431655765)
    (hnt : u.nt = 0) :
    ∃ t', mayRehash u = .ok t' ∧ WF1 hash keyOf t' ∧ t'.nb = 1431655765 ∧ t'.nt = 0 ∧ t'.ne = u.ne ∧ t'.entries.Perm u.entries := by
  have hr := W.room
  have hw : w32 (u.ne * 4) < 4294967296 := Nat.mod_lt _ (by omega)
  unfold mayRehash
  rw [if_neg (by rw [hnb]; simp [w32] at hw ⊢; omega)]
  split
  · obtain ⟨t', h1, h2, h3, h4, h5, h6, h7, h8, h9, h10⟩ := doRehash_spec W.len W.lay W.ne_eq (n := u.nb) (by omega)
    exact ⟨t', h1, ⟨h2, by omega, h5, h8, by omega, by omega, by omega, by omega⟩, by omega, h9, h7, h6⟩
  · exact ⟨u, rfl, W, hnb, hnt, rfl, List.Perm.refl _⟩

end Table

namespace HashTable
open Table

/-- a table with 1431655765 buckets, no tombstones and exactly the keys `ks` -/
structure Stuck (hash : K → UInt32) (h : Heap K V) (t : Table Nat) (ks : List K) : Prop where
  wf : WF1 hash h.keyOf t
  nb : t.nb = 1431655765
  nt : t.nt = 0
  keys : (t.entries.map h.keyOf).Perm (ks.map some)
  fresh : h.Fresh

theorem Stuck.ne {hash : K → UInt32} {h : Heap K V} {t : Table Nat} {ks : List K} (S : Stuck hash h t ks) : t.ne = ks.length := by
  have := S.keys.length_eq
  rw [List.length_map, List.length_map] at this
  rw [S.wf.ne_eq, this]

theorem Stuck.absent {hash : K → UInt32} {h : Heap K V} {t : Table Nat} {ks : List K} (S : Stuck hash h t ks) {k : K}
    (hk : k ∉ ks) : ∀ p ∈ t.entries, h.keyOf p ≠ some k := by
  intro p hp he
  have : some k ∈ ks.map some := S.keys.mem_iff.mp (by rw [← he]; exact List.mem_map_of_mem hp)
  obtain ⟨k', h1, h2⟩ := List.mem_map.mp this
  exact hk (by rw [← Option.some.inj h2]; exact h1)

theorem Stuck.insert {hash : K → UInt32} {h : Heap K V} {t : Table Nat} {ks : List K} (S : Stuck hash h t ks) {k : K} (dflt : V)
    (hk : k ∉ ks) (hlen : ks.length < 1431655765) :
    ∃ h' t', HashTable.step hash dflt h t (.insert k) = .ok (h', t', .inserted false dflt) ∧ Stuck hash h' t' (k :: ks) := by
  have hno := S.absent hk
  have hne := S.ne
  have hnb := S.nb
  have hnt := S.nt
  have W : WF hash h.keyOf t := ⟨S.wf.init, S.wf.len, S.wf.lay, S.wf.ne_eq, S.wf.nt_eq, by omega, S.wf.small⟩
  have hlt : ∀ p ∈ t.entries, p < h.next := by
    intro p hp
    rcases Nat.lt_or_ge p h.next with hlt | hge
    · exact hlt
    · exfalso
      have : h.keyOf p ∈ ks.map some := S.keys.mem_iff.mp (List.mem_map_of_mem hp)
      rw [Heap.keyOf, S.fresh p hge] at this
      simp at this
  have hcong : ∀ e ∈ t.entries, (h.alloc k dflt).1.keyOf e = h.keyOf e := by
    intro e he
    unfold Heap.keyOf
    rw [alloc_cells h S.fresh k dflt (hlt e he)]
  obtain ⟨i, u, h1, W1, h3, h4, h5, h6⟩ := insertE_store (mk := h.next) W hno hcong (by simp [Heap.keyOf, Heap.alloc]) hnt
  obtain ⟨t', e1, e2, e3, e4, e5, e6⟩ := mayRehash_stuck W1 (by omega) h6
  refine ⟨(h.alloc k dflt).1, t', ?_, e2, e3, e4, ?_, alloc_fresh h S.fresh k dflt⟩
  · rw [e1] at h1
    simp only [step, HashTable.insert, Heap.alloc] at h1 ⊢
    simp [h1, Heap.getVal]
  · refine ((e6.trans h3).map _).trans ?_
    simp only [List.map_cons]
    rw [show (h.alloc k dflt).1.keyOf h.next = some k by simp [Heap.keyOf, Heap.alloc]]
    refine List.Perm.cons _ ?_
    rw [List.map_congr_left hcong]
    exact S.keys

theorem Stuck.inserts {hash : K → UInt32} (dflt : V) : ∀ (new : List K) {h : Heap K V} {t : Table Nat} {ks : List K},
    Stuck hash h t ks → (new.reverse ++ ks).Nodup → (new.reverse ++ ks).length ≤ 1431655765 →
    ∃ h' t', runOps hash dflt h t (new.map .insert) = .ok (h', t', new.map fun _ => .inserted false dflt) ∧
      Stuck hash h' t' (new.reverse ++ ks) := by
  intro new
  induction new with
  | nil => intro h t ks S _ _; exact ⟨h, t, rfl, S⟩
  | cons k new ih =>
    intro h t ks S hnd hlen
    rw [List.reverse_cons, List.append_assoc] at hnd hlen ⊢
    have hk : k ∉ ks := by
      have := (List.nodup_append.mp hnd).2.1
      simp only [List.singleton_append, List.nodup_cons] at this
      exact this.1
    have hl : ks.length < 1431655765 := by
      simp only [List.length_append, List.length_singleton] at hlen; omega
    obtain ⟨h1, t1, e1, S1⟩ := S.insert dflt hk hl
    obtain ⟨h2, t2, e2, S2⟩ := ih S1 hnd hlen
    refine ⟨h2, t2, ?_, S2⟩
    simp only [List.map_cons, runOps, e1, Res.ok_bind, e2]

theorem stuck_new (hash : K → UInt32) : Stuck (V := V) hash Heap.empty (Table.new 1431524664) [] := by
  have hc : computeBucketSize 1431524664 = 1431655765 := by decide
  have ht : (Table.new 1431524664 : Table Nat) = initTable 1431524664 := rfl
  have := initTable_wf (E := Nat) hash (Heap.empty : Heap K V).keyOf (n := 1431524664) (by omega)
  rw [ht]
  refine ⟨this.1.to1, hc, rfl, ?_, empty_fresh⟩
  rw [this.2]; exact List.Perm.refl _

/-! ### a table with one entry -/

theorem rehashInto_zeros (n a : Nat) (rest acc : List (Bucket E)) :
    rehashInto n (List.replicate a Bucket.zero ++ rest) acc = rehashInto n rest acc := by
  induction a with
  | zero => rfl
  | succ a ih => rw [List.replicate_succ, List.cons_append, rehashInto]; exact ih

theorem set_replicate {α : Type} (x y : α) : ∀ (n i : Nat), i < n →
    (List.replicate n x).set i y = List.replicate i x ++ y :: List.replicate (n - i - 1) x
  | 0, _, h => by omega
  | n + 1, 0, _ => by simp [List.replicate_succ]
  | n + 1, i + 1, h => by
    rw [List.replicate_succ, List.set_cons_succ, set_replicate x y n i (by omega), List.replicate_succ, List.cons_append]
    congr 3
    congr 1
    omega

/-- the array with the only entry `e`, at its home position -/
def single (nb : Nat) (h : UInt32) (e : E) : List (Bucket E) := (List.replicate nb Bucket.zero).set (h.toNat % nb) ⟨h, .full e⟩

theorem rehash_single {nb : Nat} (hnb : 0 < nb) (h : UInt32) (e : E) :
    doRehash ⟨true, single nb h e, nb, 1, 0⟩ nb = .ok ⟨true, single nb h e, nb, 1, 0⟩ := by
  have hm := Nat.mod_lt h.toNat hnb
  have hl : (single nb h e).length = nb := by simp [single]
  unfold doRehash
  simp only
  rw [if_neg (by omega), List.take_of_length_le (by omega)]
  have : rehashInto nb (single nb h e) (List.replicate nb Bucket.zero) = .ok (single nb h e) := by
    conv => lhs; rw [single, set_replicate _ _ _ _ hm, rehashInto_zeros, rehashInto]
    simp only
    rw [if_neg (by omega)]
    have hp : placeLoop (List.replicate nb (Bucket.zero : Bucket E)) nb (nb + 1) (h.toNat % nb) = .ok (h.toNat % nb) := by
      rw [placeLoop, List.getElem?_replicate_of_lt hm]; rfl
    rw [hp, Res.ok_bind]
    have := rehashInto_zeros nb (nb - h.toNat % nb - 1) [] (single nb h e)
    rw [List.append_nil] at this
    exact this
  rw [this]; rfl

theorem insert_single (hash : K → UInt32) (keyOf : E → Option K) {nb : Nat} (hnb : 0 < nb) (hng : 4 ≤ w32 (nb * 3)) (k : K) (mk : E) :
    insertE hash keyOf ⟨true, List.replicate nb Bucket.zero, nb, 0, 0⟩ k mk =
      .ok (⟨true, single nb (hash k) mk, nb, 1, 0⟩, (hash k).toNat % nb, false) := by
  have hm := Nat.mod_lt (hash k).toNat hnb
  have h1 : lookupBucketFor hash keyOf ⟨true, List.replicate nb (Bucket.zero : Bucket E), nb, 0, 0⟩ k =
      .ok (⟨true, (List.replicate nb Bucket.zero).set ((hash k).toNat % nb) ⟨hash k, .empty⟩, nb, 0, 0⟩, (hash k).toNat % nb) := by
    unfold lookupBucketFor
    simp only [Bool.true_eq_false, if_false]
    rw [if_neg (by omega), lookupLoop, List.getElem?_replicate_of_lt hm]
    rfl
  have h2 : mayRehash ⟨true, single nb (hash k) mk, nb, 1, 0⟩ = .ok ⟨true, single nb (hash k) mk, nb, 1, 0⟩ := by
    unfold mayRehash
    simp only
    rw [if_neg (by simp only [w32] at hng ⊢; omega)]
    split
    · exact rehash_single hnb _ _
    · rfl
  unfold insertE
  rw [h1, Res.ok_bind]
  simp only
  rw [List.getElem?_set_self (by simpa using hm)]
  simp only [List.set_set]
  rw [show w32 (0 + 1) = 1 from rfl]
  have := h2
  rw [single] at this
  rw [this]; rfl

theorem find_single (hash : K → UInt32) (keyOf : E → Option K) {nb : Nat} (hnb : 0 < nb) {k : K} {e : E} (he : keyOf e = some k) :
    findKey hash keyOf ⟨true, single nb (hash k) e, nb, 1, 0⟩ k = .ok (some ((hash k).toNat % nb)) := by
  have hm := Nat.mod_lt (hash k).toNat hnb
  unfold findKey
  simp only [Bool.true_eq_false, if_false]
  rw [if_neg (by omega), findLoop, single, List.getElem?_set_self (by simpa using hm)]
  simp [he]

end HashTable
end Eni

namespace Eni
open Spec
variable {K V : Type} [DecidableEq K]
namespace HashTable

/-- `new_rel` for every size for which the computed number of buckets is usable -/
theorem new_rel_w32 (hash : K → UInt32) {n : Nat} (hn : n % 4294967296 ≤ 1431524664 ∨ 4294836195 < n % 4294967296) :
    TRel hash (Heap.empty : Heap K V) (Table.new n) ([] : FMap K V) := by
  rcases hn with hn | hn
  · have h1 : (Table.new n : Table Nat) = Table.new (n % 4294967296) := by
      unfold Table.new w32; rw [Nat.mod_mod]
    rw [h1]
    exact new_rel hash hn
  · have hlt : n % 4294967296 < 4294967296 := Nat.mod_lt _ (by omega)
    have hc : Table.computeBucketSize (n % 4294967296) = n % 4294967296 + 131101 - 4294967296 := by
      have hmax : ∀ s ∈ Table.bucketSizes, s ≤ 196613 := by decide
      rcases Table.computeBucketSizeFrom_cases (n % 4294967296) Table.bucketSizes with ⟨h1, _⟩ | ⟨h1, h2⟩
      · unfold Table.computeBucketSize; rw [h1]; unfold w32; omega
      · have := hmax _ h1; omega
    have ht : ∃ m, 0 < m ∧ m ≤ 131100 ∧ (Table.new n : Table Nat) = ⟨true, List.replicate m Bucket.zero, m, 0, 0⟩ := by
      refine ⟨n % 4294967296 + 131101 - 4294967296, by omega, by omega, ?_⟩
      unfold Table.new
      have hw : w32 n = n % 4294967296 := rfl
      rw [hw, if_pos (by omega)]
      unfold Table.initTable
      rw [if_pos (by omega), hc]
    obtain ⟨m, h0, h1, h2⟩ := ht
    rw [h2]
    refine ⟨Or.inr ⟨rfl, by simp, ⟨?_, Table.reachable_replicate m, ?_⟩, ?_, ?_, h0, by simp only; omega⟩, ?_⟩
    · intro b hb e hs
      rw [List.eq_of_mem_replicate hb] at hs
      simp [Bucket.zero] at hs
    · rw [Table.ents_replicate]; simp
    · rw [Table.entries_eq]; simp only [Table.ents_replicate]; rfl
    · rw [Table.tombs_eq]; simp only [Table.tmb_replicate]
    · rw [Table.entries_eq]; simp only [Table.ents_replicate]; exact List.Perm.refl _

end HashTable
end Eni
