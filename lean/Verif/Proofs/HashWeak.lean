import Verif.Proofs.HashOps
import Verif.Proofs.StringMap
/-!
# Tables whose keys may be corrupted

The counters and the free bucket alone (no assumption on the stored hashes and keys) guarantee that insertion is defined. This covers
string maps with keys above 65535 bytes, whose entries forget the true key.
-/
namespace Eni
namespace Table
variable {E K : Type}

/-- Counters exact, a free bucket left; nothing about keys and hashes. -/
structure Counted (t : Table E) : Prop where
  init : t.init = true
  len : t.buckets.length = t.nb
  ne_eq : t.ne = t.entries.length
  nt_eq : t.nt = t.tombs
  room : t.ne + t.nt < t.nb
  small : t.nb ≤ 1431655765

theorem WF.counted {hash : K → UInt32} {keyOf : E → Option K} {t : Table E} (W : WF hash keyOf t) : Counted t :=
  ⟨W.init, W.len, W.ne_eq, W.nt_eq, W.room, W.small⟩

theorem doRehash_counted {t : Table E} (len : t.buckets.length = t.nb) (ne_eq : t.ne = t.entries.length) {n : Nat} (hn : t.ne ≤ n) :
    ∃ t', doRehash t n = .ok t' ∧ t'.init = true ∧ t'.nb = n ∧ t'.buckets.length = n ∧
      t'.entries.Perm t.entries ∧ t'.ne = t.ne ∧ t'.nt = 0 ∧ t'.tombs = 0 := by
  rw [entries_eq] at ne_eq
  obtain ⟨r, h1, h2, h3, h4, h5⟩ := rehashInto_spec n (t.buckets.take t.nb) (List.replicate n Bucket.zero) (by simp)
    (tmb_replicate n) (reachable_replicate n) (by
      rw [ents_replicate, List.take_of_length_le (by omega)]; simp only [List.length_nil]; omega)
  rw [List.take_of_length_le (by omega)] at h1 h5
  rw [fulls_replicate, List.nil_append] at h5
  have hent : (ents r).Perm (ents t.buckets) := by
    rw [← fulls_map, ← fulls_map]; exact h5.map _
  refine ⟨⟨true, r, n, t.ne, 0⟩, ?_, rfl, rfl, h2, hent, rfl, rfl, h3⟩
  unfold doRehash
  rw [if_neg (by omega), List.take_of_length_le (by omega), h1]
  rfl

theorem mayRehash_counted {t : Table E} (init : t.init = true) (len : t.buckets.length = t.nb) (ne_eq : t.ne = t.entries.length)
    (nt_eq : t.nt = t.tombs) (room : t.ne + t.nt ≤ t.nb) (pos : 0 < t.nb) (small : t.nb ≤ 1431655765) (hne : t.ne ≤ 1073643498) :
    ∃ t', mayRehash t = .ok t' ∧ Counted t' ∧ t'.entries.Perm t.entries := by
  unfold mayRehash
  rw [w32_of_lt (by omega : t.ne * 4 < _), w32_of_lt (by omega : t.nb * 3 < _), w32_of_lt (by omega : t.ne + t.nt < _),
    sub32_of_le (by omega) (by omega)]
  have hw : w32 ((t.nb - (t.ne + t.nt)) * 8) ≤ (t.nb - (t.ne + t.nt)) * 8 := Nat.mod_le _ _
  have hb := computeBucketSize_bounds t.nb (by omega)
  split
  · rename_i h
    obtain ⟨t', h1, h2, h3, h4, h6, h7, h9, h10⟩ := doRehash_counted len ne_eq (n := computeBucketSize t.nb) (by omega)
    have := h6.length_eq
    exact ⟨t', h1, ⟨h2, by omega, by omega, by omega, by omega, by omega⟩, h6⟩
  · rename_i h
    split
    · rename_i h'
      obtain ⟨t', h1, h2, h3, h4, h6, h7, h9, h10⟩ := doRehash_counted len ne_eq (n := t.nb) (by omega)
      have := h6.length_eq
      exact ⟨t', h1, ⟨h2, by omega, by omega, by omega, by omega, by omega⟩, h6⟩
    · rename_i h'
      exact ⟨t, rfl, ⟨init, len, ne_eq, nt_eq, by omega, small⟩, List.Perm.refl _⟩

variable [DecidableEq K]

/-- the probe loop always delivers a bucket: one with a matching entry, or a free one -/
theorem lookupLoop_counted {keyOf : E → Option K} {bs : List (Bucket E)} (live : ∀ e ∈ ents bs, ∃ k, keyOf e = some k)
    (room : (ents bs).length + tmb bs < bs.length) (small : bs.length ≤ 2147483648) (h : UInt32) (k : K) :
    (∃ (i : Nat) (b : Bucket E) (e : E), lookupLoop keyOf bs bs.length h k (bs.length + 1) (h.toNat % bs.length) none = .ok (bs, i)
      ∧ bs[i]? = some b ∧ b.slot = .full e) ∨
    (∃ (j : Nat) (b : Bucket E), bs[j]? = some b ∧ (b.slot = .empty ∨ b.slot = .tomb) ∧
        lookupLoop keyOf bs bs.length h k (bs.length + 1) (h.toNat % bs.length) none =
          .ok (bs.set j { b with hash := h }, j)) := by
  obtain ⟨d, b, hd, hb, hst, hmin⟩ := stop_exists (keyOf := keyOf) (h := h) (k := k) room h.toNat
  have pos : 0 < bs.length := by omega
  obtain ⟨ft, hskip, hft⟩ := lookupLoop_skip (keyOf := keyOf) (h := h) (k := k) live pos h.toNat d (bs.length - d + 1) hmin
  rw [show bs.length - d + 1 + d = bs.length + 1 by omega] at hskip
  rw [hskip]
  rcases hst with he | ⟨e, hs, hh, hk⟩
  · right
    rcases hft with rfl | ⟨d1, hd1, b1, rfl, hb1, hs1⟩
    · refine ⟨_, b, hb, Or.inl he, ?_⟩
      unfold lookupLoop
      simp [hb, he]
    · refine ⟨_, b1, hb1, Or.inr hs1, ?_⟩
      have hlt := lt_of_get hb1
      have : (h.toNat + d1) % bs.length < 2147483648 := by omega
      unfold lookupLoop
      simp only [hb, he, if_pos this, hb1]
  · left
    refine ⟨_, b, e, ?_, hb, hs⟩
    unfold lookupLoop
    simp [hb, hs, hh, hk]

/-- insertion into a counted table is defined -/
theorem insertE_counted {hash : K → UInt32} {keyOf : E → Option K} {t : Table E} (C : Counted t)
    (live : ∀ e, ∃ k, keyOf e = some k) (hne : t.ne < 1073643498) (k : K) (mk : E) :
    (∃ i b e, insertE hash keyOf t k mk = .ok (t, i, true) ∧ t.buckets[i]? = some b ∧ b.slot = .full e) ∨
    (∃ i t', insertE hash keyOf t k mk = .ok (t', i, false) ∧ Counted t' ∧ t'.entries.Perm (mk :: t.entries)) := by
  have hr := C.room
  have hlen := C.len
  have hsm := C.small
  have hne_eq := C.ne_eq
  have hnt_eq := C.nt_eq
  rw [entries_eq] at hne_eq
  rw [tombs_eq] at hnt_eq
  have ht0 : (if t.init = false then initTable 16 else t) = t := by rw [if_neg (by simp [C.init])]
  rcases lookupLoop_counted (fun e _ => live e) (by omega : (ents t.buckets).length + tmb t.buckets < t.buckets.length) (by omega)
    (hash k) k with ⟨i, b, e, h, hi, hs⟩ | ⟨j, b, hj, hfree, h⟩
  · left
    refine ⟨i, b, e, ?_, hi, hs⟩
    rw [hlen] at h
    simp only [insertE, lookupBucketFor, ht0, if_neg (by omega : ¬ t.nb = 0), h, Res.ok_bind, hi, hs]
  · right
    have hjl := lt_of_get hj
    have hse : slotEntry b = none := by rcases hfree with h | h <;> simp [slotEntry, h]
    have hp := ents_set (b' := ⟨hash k, .full mk⟩) hj
    rw [hse] at hp
    have hset2 : (t.buckets.set j { b with hash := hash k })[j]? = some { b with hash := hash k } := by
      rw [List.getElem?_set_self hjl]
    have ht := tmb_set (b' := ⟨hash k, .full mk⟩) hj
    have hp' : (ents (t.buckets.set j ⟨hash k, .full mk⟩)).Perm (mk :: ents t.buckets) := by
      simpa [slotEntry] using hp
    have hplen := hp'.length_eq
    simp only [List.length_cons] at hplen
    rw [hlen] at h
    have fin : ∀ nt, nt = tmb (t.buckets.set j ⟨hash k, .full mk⟩) → nt ≤ t.nt → t.nt ≤ nt + 1 →
        ∃ t', mayRehash (⟨t.init, t.buckets.set j ⟨hash k, .full mk⟩, t.nb, w32 (t.ne + 1), nt⟩ : Table E) = .ok t' ∧
          Counted t' ∧ t'.entries.Perm (mk :: t.entries) := by
      intro nt hnt hle hge
      have e1 : w32 (t.ne + 1) = t.ne + 1 := w32_of_lt (by omega)
      obtain ⟨t', h1, h2, h3⟩ := mayRehash_counted
        (t := ⟨t.init, t.buckets.set j ⟨hash k, .full mk⟩, t.nb, w32 (t.ne + 1), nt⟩) C.init (by simpa using hlen)
        (by simp only [entries_eq, e1]; omega) (by simp only [tombs_eq]; exact hnt) (by simp only [e1]; omega) (by simp only; omega)
        hsm (by simp only [e1]; omega)
      exact ⟨t', h1, h2, h3.trans hp'⟩
    rcases hfree with hb | hb
    · have ht2 : tmb (t.buckets.set j ⟨hash k, .full mk⟩) = tmb t.buckets := by
        have e1 : isTomb b = false := by simp [isTomb, hb]
        have e2 : isTomb (⟨hash k, .full mk⟩ : Bucket E) = false := rfl
        rw [e1, e2] at ht; simpa using ht
      rw [hb] at hset2 h
      obtain ⟨t', h1, h2, h3⟩ := fin t.nt (by rw [hnt_eq]; exact ht2.symm) (by omega) (by omega)
      refine ⟨j, t', ?_, h2, h3⟩
      simp only [insertE, lookupBucketFor, ht0, if_neg (by omega : ¬ t.nb = 0), h, Res.ok_bind, hset2, List.set_set, h1]
    · have ht2 : tmb (t.buckets.set j ⟨hash k, .full mk⟩) + 1 = tmb t.buckets := by
        have e1 : isTomb b = true := by simp [isTomb, hb]
        have e2 : isTomb (⟨hash k, .full mk⟩ : Bucket E) = false := rfl
        rw [e1, e2] at ht; simpa using ht
      rw [hb] at hset2 h
      have hpos : 1 ≤ t.nt := by omega
      have hsub : sub32 t.nt 1 = t.nt - 1 := sub32_of_le hpos (by omega)
      obtain ⟨t', h1, h2, h3⟩ := fin (sub32 t.nt 1) (by rw [hsub]; omega) (by omega) (by omega)
      refine ⟨j, t', ?_, h2, h3⟩
      simp only [insertE, lookupBucketFor, ht0, if_neg (by omega : ¬ t.nb = 0), h, Res.ok_bind, hset2, List.set_set, h1]

end Table

namespace SMap
variable {V : Type}

/-- `m[k] = v` is defined for every key, also one that is too long -/
theorem assign_counted {t : SMap V} (C : Table.Counted t) (hne : t.ne < 1073643498) (k : Bytes) (v : V) :
    ∃ t' b, assign t k v = .ok (t', b) ∧ Table.Counted t' ∧ t'.ne ≤ t.ne + 1 ∧
      ∀ e ∈ t'.entries, e.val = v ∨ e ∈ t.entries := by
  rcases Table.insertE_counted (hash := Hasher.sdbm) (keyOf := SEntry.keyO) C (fun e => ⟨_, rfl⟩) hne k (SEntry.mk' k v) with
    ⟨i, b, e, h, hi, hs⟩ | ⟨i, t', h, C', hp⟩
  · obtain ⟨bh, bs⟩ := b
    simp only at hs
    subst hs
    have hp := Table.ents_set (b' := ⟨bh, .full { e with val := v }⟩) hi
    have hl : (Table.ents (t.buckets.set i ⟨bh, .full { e with val := v }⟩)).length = (Table.ents t.buckets).length := by
      have := hp.length_eq; simp [Table.slotEntry] at this; omega
    have ht := Table.tmb_set (b' := ⟨bh, .full { e with val := v }⟩) hi
    refine ⟨{ t with buckets := t.buckets.set i ⟨bh, .full { e with val := v }⟩ }, true, by simp [assign, insert, h, hi],
      ⟨C.init, by simpa using C.len, ?_, ?_, C.room, C.small⟩, by simp, ?_⟩
    · have := C.ne_eq
      simp only [Table.entries_eq] at this ⊢
      omega
    · have := C.nt_eq
      simp only [Table.tombs_eq] at this ⊢
      simp [Table.isTomb] at ht
      omega
    · intro x hx
      have hx : x ∈ e :: Table.ents (t.buckets.set i ⟨bh, .full { e with val := v }⟩) := List.mem_cons_of_mem _ hx
      have := hp.mem_iff (a := x)
      simp only [Table.slotEntry, Option.toList_some, List.singleton_append] at this
      rcases List.mem_cons.mp (this.mp hx) with rfl | h
      · exact Or.inl rfl
      · exact Or.inr h
  · refine ⟨t', false, by simp [assign, insert, h], C', ?_, ?_⟩
    · have := hp.length_eq
      rw [C'.ne_eq, C.ne_eq]
      simp at this
      omega
    · intro e he
      rcases List.mem_cons.mp (hp.mem_iff.mp he) with rfl | h
      · exact Or.inl rfl
      · exact Or.inr h

theorem copy_counted {t : SMap V} (C : Table.Counted t) : Table.Counted (copy t) := by
  have hent : (copy t).entries = t.entries.map fun e => SEntry.mk' e.key e.val := copyB_ents t.buckets
  refine ⟨rfl, ?_, ?_, ?_, C.room, C.small⟩
  · rw [copy_eq]; simpa using C.len
  · rw [hent, List.length_map]; exact C.ne_eq
  · show t.nt = Table.tmb (t.buckets.map copyB)
    rw [copyB_tmb]; exact C.nt_eq

theorem copy_vals {t : SMap V} {e : SEntry V} (h : e ∈ (copy t).entries) : ∃ e0 ∈ t.entries, e.val = e0.val := by
  have hent : (copy t).entries = t.entries.map fun e => SEntry.mk' e.key e.val := copyB_ents t.buckets
  rw [hent] at h
  obtain ⟨e0, h0, rfl⟩ := List.mem_map.mp h
  exact ⟨e0, h0, rfl⟩

end SMap
end Eni
