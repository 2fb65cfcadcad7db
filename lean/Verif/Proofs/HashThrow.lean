import Verif.Proofs.HashHistory
import Verif.Proofs.HashCount
import Verif.Spec.HashThrow
/-!
# Tables whose entries may refuse to be made

The counter of tombstones may be too low by the number of failures; `hat` is the table with the right counter. Helper lemmas, no property statements.
-/
set_option linter.unusedSectionVars false
set_option linter.unusedVariables false

namespace Eni
open Spec
namespace Table
variable {E K : Type}

/-- the table with an exact counter of tombstones -/
def hat (t : Table E) : Table E := { t with nt := t.tombs }

/-- the counter of tombstones is too low by at most `d`; the array is large enough for `f` such failures -/
def Debt (f d : Nat) (t : Table E) : Prop :=
  (t = null ∧ f ≤ 2) ∨ (8 * f < t.nb ∧ ∃ d' ≤ d, t.nt = w32 (t.tombs + 4294967296 - d'))

theorem hat_null : hat (null : Table E) = null := rfl

theorem mayRehash_debt {hash : K → UInt32} {keyOf : E → Option K} {u : Table E} (W : WF1 hash keyOf (hat u)) {f d : Nat} (hd : d ≤ f)
    (hf : 8 * f < u.nb) (hnt : ∃ d' ≤ d, u.nt = w32 (u.tombs + 4294967296 - d')) (hne : u.ne ≤ 1073643498) :
    ∃ t', mayRehash u = .ok t' ∧ WF hash keyOf (hat t') ∧ t'.entries.Perm u.entries ∧ Debt f d t' ∧ (u.tombs = 0 → t'.tombs = 0) := by
  have hs : u.nb ≤ 1431655765 := W.small
  have hr : u.ne + u.tombs ≤ u.nb := W.room
  have hp : 0 < u.nb := W.pos
  obtain ⟨d', hd', hnt'⟩ := hnt
  unfold mayRehash
  have e1 : sub32 u.nb (w32 (u.ne + u.nt)) = u.nb - (u.ne + u.tombs) + d' := by
    rw [hnt']; unfold sub32 w32; omega
  rw [w32_of_lt (by omega : u.ne * 4 < _), w32_of_lt (by omega : u.nb * 3 < _), e1]
  have hw : w32 ((u.nb - (u.ne + u.tombs) + d') * 8) ≤ (u.nb - (u.ne + u.tombs) + d') * 8 := Nat.mod_le _ _
  have hb := computeBucketSize_bounds u.nb (by omega)
  have fin : ∀ n, u.nb ≤ n → u.ne < n → n ≤ 1431655765 → ∃ t', doRehash u n = .ok t' ∧ WF hash keyOf (hat t') ∧ t'.entries.Perm u.entries ∧ Debt f d t' ∧
      (u.tombs = 0 → t'.tombs = 0) := by
    intro n h1 h2 h3
    obtain ⟨t', g1, g2, g3, g4, g5, g6, g7, g8, g9, g10⟩ := doRehash_spec (t := u) W.len W.lay W.ne_eq (n := n) (by omega)
    refine ⟨t', g1, ⟨g2, by simp only [hat]; omega, g5, g8, rfl, by simp only [hat]; omega, by simp only [hat]; omega⟩, g6, Or.inr ⟨by omega, 0, by omega, ?_⟩, fun _ => g10⟩
    rw [g9, g10]; rfl
  split
  · rename_i h
    exact fin _ (by omega) (by omega) (by omega)
  · rename_i h
    split
    · rename_i h'
      exact fin _ (by omega) (by omega) (by omega)
    · rename_i h'
      exact ⟨u, rfl, ⟨W.init, W.len, W.lay, W.ne_eq, W.nt_eq, by simp only [hat]; omega, W.small⟩, List.Perm.refl _,
        Or.inr ⟨hf, d', hd', hnt'⟩, fun h => h⟩

section
variable [DecidableEq K]

theorem findKey_hat (hash : K → UInt32) (keyOf : E → Option K) (t : Table E) (k : K) : findKey hash keyOf (hat t) k = findKey hash keyOf t k := rfl
theorem findE_hat (hash : K → UInt32) (keyOf : E → Option K) (t : Table E) (k : K) : findE hash keyOf (hat t) k = findE hash keyOf t k := rfl

/-- the tables with a debt on which every operation is defined -/
theorem hat_cases {hash : K → UInt32} {keyOf : E → Option K} {t : Table E} {f d : Nat} (G : Good hash keyOf (hat t)) (D : Debt f d t) :
    (t = null ∧ f ≤ 2) ∨ (WF hash keyOf (hat t) ∧ 8 * f < t.nb ∧ ∃ d' ≤ d, t.nt = w32 (t.tombs + 4294967296 - d')) := by
  rcases D with h | ⟨h1, h2⟩
  · exact Or.inl h
  · rcases G with h | W
    · have : (hat t).nb = 0 := by rw [h]; rfl
      simp only [hat] at this; omega
    · exact Or.inr ⟨W, h1, h2⟩

theorem eraseE_debt {hash : K → UInt32} {keyOf : E → Option K} {t : Table E} {f d : Nat} (G : Good hash keyOf (hat t)) (D : Debt f d t) (hd : d ≤ f)
    (hne : t.ne ≤ 1073643498) (k : K) :
    (eraseE hash keyOf t k = .ok (t, none) ∧ ∀ e ∈ t.entries, keyOf e ≠ some k) ∨
    (∃ e t', eraseE hash keyOf t k = .ok (t', some e) ∧ keyOf e = some k ∧ (e :: t'.entries).Perm t.entries ∧
      WF hash keyOf (hat t') ∧ Debt f d t') := by
  rcases hat_cases G D with ⟨rfl, _⟩ | ⟨W, hf, d', hd', hnt⟩
  · left; exact ⟨rfl, by simp [entries, null]⟩
  · rcases W.findKey_spec k with ⟨h, hno⟩ | ⟨i, b, e, h, hi, hs, hk⟩
    · rw [findKey_hat] at h
      left; exact ⟨by simp [eraseE, h], hno⟩
    · rw [findKey_hat] at h
      right
      have hi' : t.buckets[i]? = some b := hi
      have hil := lt_of_get hi'
      have hl : t.buckets.length = t.nb := W.len
      have hsm : t.nb ≤ 1431655765 := W.small
      have hroom : t.ne + t.tombs < t.nb := W.room
      obtain ⟨L', hp⟩ := W.lay.erase hi hs
      have hne_eq : t.ne = (ents t.buckets).length := W.ne_eq
      have hlen := hp.length_eq
      simp only [List.length_cons] at hlen
      have hnepos : 1 ≤ t.ne := by simp only [hat] at hlen; omega
      have ht := tmb_set (b' := { b with slot := .tomb }) hi'
      simp only [isTomb, hs] at ht
      simp at ht
      have hsub : sub32 t.ne 1 = t.ne - 1 := sub32_of_le hnepos (by omega)
      have htom : tmb (t.buckets.set i { b with slot := .tomb }) = t.tombs + 1 := by simp only [tmb, tombs_eq] at ht ⊢; omega
      have W1 : WF1 hash keyOf (hat { t with buckets := t.buckets.set i { b with slot := .tomb }, ne := sub32 t.ne 1, nt := w32 (t.nt + 1) }) := by
        refine ⟨W.init, ?_, L', ?_, rfl, ?_, ?_, hsm⟩
        · simpa [hat] using hl
        · simp only [hat, entries_eq, hsub] at hlen ⊢; omega
        · simp only [hat, tombs_eq, hsub]; rw [htom]; omega
        · simp only [hat]; omega
      obtain ⟨t', h1, h2, h3, h4, _⟩ := mayRehash_debt (f := f) (d := d) W1 hd hf ⟨d', hd', by
        simp only [tombs_eq]; rw [htom, hnt]; unfold w32; omega⟩ (by simp only [hsub]; omega)
      refine ⟨e, t', ?_, hk, (List.Perm.cons e h3).trans hp, h2, h4⟩
      simp only [eraseE, h, Res.ok_bind, if_pos (by omega : i < 2147483648), hi', hs, h1]

/-- overwriting the hash of a bucket without entry -/
theorem Layout.rehashed {hash : K → UInt32} {keyOf : E → Option K} {bs : List (Bucket E)} (L : Layout hash keyOf bs) {j : Nat} {b : Bucket E} (hj : bs[j]? = some b)
    (hs : slotEntry b = none) (hv : UInt32) :
    Layout hash keyOf (bs.set j { b with hash := hv }) ∧ ents (bs.set j { b with hash := hv }) = ents bs ∧ tmb (bs.set j { b with hash := hv }) = tmb bs := by
  have hjl := lt_of_get hj
  have nofull : ∀ e, b.slot ≠ .full e := by
    intro e he; simp [slotEntry, he] at hs
  have he : ents (bs.set j { b with hash := hv }) = ents bs := by
    rw [set_at hj]
    conv => rhs; rw [split_at hj]
    have hs' : slotEntry ({ b with hash := hv } : Bucket E) = none := hs
    simp only [ents, List.filterMap_append, List.filterMap_cons, hs, hs']
  refine ⟨⟨?_, ?_, ?_⟩, he, ?_⟩
  · intro b' hb' e hse
    rcases List.mem_or_eq_of_mem_set hb' with h | h
    · exact L.hashOk b' h e hse
    · subst h; exact absurd hse (nofull e)
  · intro i b' e hi hse
    have hne : j ≠ i := by
      rintro rfl
      rw [List.getElem?_set_self hjl] at hi
      have := Option.some.inj hi
      subst this
      exact absurd hse (nofull e)
    rw [List.getElem?_set_ne hne] at hi
    rw [List.length_set]
    refine Reach.mono (bs := bs) (by simp) ?_ (L.reach i b' e hi hse)
    intro q bq hq hqs
    by_cases hqj : j = q
    · subst hqj
      rw [hj] at hq
      have := Option.some.inj hq
      subst this
      exact ⟨_, List.getElem?_set_self hjl, hqs⟩
    · exact ⟨bq, by rw [List.getElem?_set_ne hqj]; exact hq, hqs⟩
  · rw [he]; exact L.nodup
  · have ht := tmb_set (b' := { b with hash := hv }) hj
    have : isTomb ({ b with hash := hv } : Bucket E) = isTomb b := rfl
    rw [this] at ht
    simp only [tmb] at ht ⊢
    omega

/-- `lookupBucketFor` on a table with a debt -/
theorem lookup_debt {hash : K → UInt32} {keyOf : E → Option K} {t : Table E} {f d : Nat} (G : Good hash keyOf (hat t)) (D : Debt f d t) (k : K) :
    (∃ i b e, lookupBucketFor hash keyOf t k = .ok (t, i) ∧ t.buckets[i]? = some b ∧ b.slot = .full e ∧ keyOf e = some k ∧ e ∈ t.entries) ∨
    ((∀ e ∈ t.entries, keyOf e ≠ some k) ∧ ∃ (t0 : Table E) (j : Nat) (b : Bucket E), WF hash keyOf (hat t0) ∧ t0.entries = t.entries ∧ t0.tombs = t.tombs ∧ t0.ne = t.ne ∧
      8 * f < t0.nb ∧ (∃ d' ≤ d, t0.nt = w32 (t0.tombs + 4294967296 - d')) ∧
      t0.buckets[j]? = some b ∧ (b.slot = .empty ∨ b.slot = .tomb) ∧ Reach t0.buckets ((hash k).toNat % t0.nb) j ∧
      lookupBucketFor hash keyOf t k = .ok ({ t0 with buckets := t0.buckets.set j { b with hash := hash k } }, j)) := by
  obtain ⟨t0, ht0, W, hent, htom, hne, hor, hf, hnt⟩ : ∃ t0 : Table E, (if t.init = false then initTable 16 else t) = t0 ∧ WF hash keyOf (hat t0) ∧
      t0.entries = t.entries ∧ t0.tombs = t.tombs ∧ t0.ne = t.ne ∧ (t0 = t ∨ t0.entries = []) ∧ 8 * f < t0.nb ∧
      (∃ d' ≤ d, t0.nt = w32 (t0.tombs + 4294967296 - d')) := by
    rcases hat_cases G D with ⟨rfl, h2⟩ | ⟨W, hf, hnt⟩
    · have hw := initTable_wf (E := E) hash keyOf (n := 16) (by omega)
      have htz : (initTable 16 : Table E).tombs = 0 := by rw [← hw.1.nt_eq]; rfl
      refine ⟨initTable 16, rfl, ?_, by rw [hw.2]; rfl, by rw [htz]; rfl, rfl, Or.inr hw.2, ?_, 0, by omega, ?_⟩
      · have : hat (initTable 16 : Table E) = initTable 16 := by
          unfold hat; rw [htz]; rfl
        rw [this]; exact hw.1
      · show 8 * f < 17
        omega
      · rw [htz]; rfl
    · have : t.init = true := W.init
      exact ⟨t, by rw [if_neg (by simp [this])], W, rfl, rfl, rfl, Or.inl rfl, hf, hnt⟩
  have hr : t0.ne + t0.tombs < t0.nb := W.room
  have hlen : t0.buckets.length = t0.nb := W.len
  have hsm : t0.nb ≤ 1431655765 := W.small
  have hne_eq : t0.ne = (ents t0.buckets).length := W.ne_eq
  have hroom : (ents t0.buckets).length + tmb t0.buckets < t0.buckets.length := by
    rw [tombs_eq] at hr; omega
  rcases Layout.lookupLoop_spec (bs := t0.buckets) W.lay hroom (by omega) k with ⟨i, b, e, h, hi, hs, hk⟩ | ⟨hno, j, b, hj, hfree, hreach, h⟩
  · left
    have heq : t0 = t := by
      rcases hor with h1 | h1
      · exact h1
      · have : e ∈ t0.entries := mem_ents.mpr ⟨i, b, hi, hs⟩
        rw [h1] at this
        exact absurd this (by simp)
    subst heq
    rw [hlen] at h
    refine ⟨i, b, e, ?_, hi, hs, hk, mem_ents.mpr ⟨i, b, hi, hs⟩⟩
    simp only [lookupBucketFor, ht0, if_neg (by omega : ¬ t0.nb = 0), h, Res.ok_bind]
  · right
    rw [← entries_eq, hent] at hno
    rw [hlen] at h hreach
    refine ⟨hno, t0, j, b, W, hent, htom, hne, hf, hnt, hj, hfree, hreach, ?_⟩
    simp only [lookupBucketFor, ht0, if_neg (by omega : ¬ t0.nb = 0), h, Res.ok_bind]

theorem insertE_debt {hash : K → UInt32} {keyOf : E → Option K} {t : Table E} {f d : Nat} (G : Good hash keyOf (hat t)) (D : Debt f d t) (hd : d ≤ f)
    (hne : t.ne < 1073643498) (k : K) :
    (∃ i b e, (∀ mk, insertE hash keyOf t k mk = .ok (t, i, true)) ∧ t.buckets[i]? = some b ∧ b.slot = .full e ∧
        keyOf e = some k ∧ e ∈ t.entries) ∨
    ((∀ e ∈ t.entries, keyOf e ≠ some k) ∧ ∀ (keyOf' : E → Option K) mk, (∀ e ∈ t.entries, keyOf' e = keyOf e) →
      keyOf' mk = some k → ∃ i t', insertE hash keyOf t k mk = .ok (t', i, false) ∧ WF hash keyOf' (hat t') ∧
        t'.entries.Perm (mk :: t.entries) ∧ Debt f d t' ∧ (t.tombs = 0 → t'.tombs = 0)) := by
  rcases lookup_debt G D k with ⟨i, b, e, h, hi, hs, hk, he⟩ | ⟨hno, t0, j, b, W, hent, htom, hne0, hf, ⟨d', hd', hnt⟩, hj, hfree, hreach, h⟩
  · left
    exact ⟨i, b, e, fun mk => by simp only [insertE, h, Res.ok_bind, hi, hs], hi, hs, hk, he⟩
  · right
    refine ⟨hno, fun keyOf' mk hcong hmk => ?_⟩
    have hcong0 : ∀ e ∈ (hat t0).entries, keyOf' e = keyOf e := by
      intro e he; exact hcong e (by rw [← hent]; exact he)
    have W' := W.congr hcong0
    have hno' : ∀ e ∈ ents t0.buckets, keyOf' e ≠ some k := by
      intro e he; rw [hcong0 e he]; exact hno e (by rw [← hent]; exact he)
    have hse : slotEntry b = none := by rcases hfree with h | h <;> simp [slotEntry, h]
    have hlen : t0.buckets.length = t0.nb := W.len
    have hsm : t0.nb ≤ 1431655765 := W.small
    have hr : t0.ne + t0.tombs < t0.nb := W.room
    obtain ⟨L', hp⟩ := Layout.insert (bs := t0.buckets) W'.lay hj hse (by rw [hlen]; exact hreach) hno' hmk
    have hjl := lt_of_get hj
    have hset2 : (t0.buckets.set j { b with hash := hash k })[j]? = some { b with hash := hash k } := by
      rw [List.getElem?_set_self hjl]
    have hne_eq : t0.ne = (ents t0.buckets).length := W.ne_eq
    have hplen := hp.length_eq
    simp only [List.length_cons] at hplen
    have ht := tmb_set (b' := ⟨hash k, .full mk⟩) hj
    have fin : ∀ nt, tmb (t0.buckets.set j ⟨hash k, .full mk⟩) ≤ t0.tombs → (∃ d' ≤ d, nt = w32 (tmb (t0.buckets.set j ⟨hash k, .full mk⟩) + 4294967296 - d')) →
        ∃ t', mayRehash (⟨t0.init, t0.buckets.set j ⟨hash k, .full mk⟩, t0.nb, w32 (t0.ne + 1), nt⟩ : Table E) = .ok t' ∧
          WF hash keyOf' (hat t') ∧ t'.entries.Perm (mk :: t.entries) ∧ Debt f d t' ∧ (t.tombs = 0 → t'.tombs = 0) := by
      intro nt hle hnt
      have W1 : WF1 hash keyOf' (hat (⟨t0.init, t0.buckets.set j ⟨hash k, .full mk⟩, t0.nb, w32 (t0.ne + 1), nt⟩ : Table E)) := by
        rw [w32_of_lt (by omega)]
        refine ⟨W.init, by simpa [hat] using hlen, L', ?_, rfl, ?_, by simp only [hat]; omega, hsm⟩
        · simp only [hat, entries_eq]; omega
        · simp only [hat, tombs_eq] at hle ⊢; simp only [tombs_eq] at hr; omega
      obtain ⟨t', h1, h2, h3, h4, h5⟩ := mayRehash_debt (f := f) (d := d) W1 hd hf hnt (by simp only; rw [w32_of_lt (by omega)]; omega)
      refine ⟨t', h1, h2, h3.trans ?_, h4, fun h => h5 ?_⟩
      · rw [← hent]; exact hp
      · simp only [tombs_eq] at hle htom h ⊢; omega
    rcases hfree with hb | hb
    · have ht2 : tmb (t0.buckets.set j ⟨hash k, .full mk⟩) = tmb t0.buckets := by
        have e1 : isTomb b = false := by simp [isTomb, hb]
        have e2 : isTomb (⟨hash k, .full mk⟩ : Bucket E) = false := rfl
        rw [e1, e2] at ht; simpa using ht
      rw [hb] at hset2 h
      obtain ⟨t', h1, h2, h3, h4⟩ := fin t0.nt (by rw [tombs_eq]; omega) ⟨d', hd', by rw [hnt, tombs_eq, ht2]⟩
      refine ⟨j, t', ?_, h2, h3, h4⟩
      simp only [insertE, h, Res.ok_bind, hset2, List.set_set, h1]
    · have ht2 : tmb (t0.buckets.set j ⟨hash k, .full mk⟩) + 1 = tmb t0.buckets := by
        have e1 : isTomb b = true := by simp [isTomb, hb]
        have e2 : isTomb (⟨hash k, .full mk⟩ : Bucket E) = false := rfl
        rw [e1, e2] at ht; simpa using ht
      rw [hb] at hset2 h
      obtain ⟨t', h1, h2, h3, h4⟩ := fin (sub32 t0.nt 1) (by rw [tombs_eq]; omega) ⟨d', hd', by
        rw [hnt, tombs_eq]; unfold sub32 w32; omega⟩
      refine ⟨j, t', ?_, h2, h3, h4⟩
      simp only [insertE, h, Res.ok_bind, hset2, List.set_set, h1]

end
end Table

namespace HThr
variable {K V : Type} [DecidableEq K]
variable {hash : K → UInt32} {dflt : V} {h : Heap K V} {t : Table Nat} {m : FMap K V} {f d : Nat}
open Table HashTable

theorem insert_debt (R : TRel hash h (hat t) m) (F : h.Fresh) (D : Debt f d t) (hd : d ≤ f) (hm : m.length < 1073643498) (k : K) :
    (∃ p v, HashTable.insert hash dflt h t k = .ok (h, t, p, true) ∧ p ∈ t.entries ∧ h.cells p = some ⟨k, v⟩ ∧
      m.lookup k = some v) ∨
    (m.lookup k = none ∧ ∃ t', HashTable.insert hash dflt h t k = .ok ((h.alloc k dflt).1, t', h.next, false) ∧
      TRel hash (h.alloc k dflt).1 (hat t') ((k, dflt) :: m) ∧ t'.entries.Perm (h.next :: t.entries) ∧ Debt f d t' ∧ (t.tombs = 0 → t'.tombs = 0)) := by
  have hne : t.ne = m.length := R.ne_eq
  rcases Table.insertE_debt R.good D hd (by omega) k with ⟨i, b, e, hins, hi, hs, hk, he⟩ | ⟨hno, hins⟩
  · left
    obtain ⟨v, hc, hl⟩ := R.of_key he hk
    refine ⟨e, v, ?_, he, hc, hl⟩
    obtain ⟨bh, bs⟩ := b
    simp only at hs
    subst hs
    simp only [HashTable.insert, hins, Res.ok_bind, if_true, hi]
  · right
    refine ⟨R.none_of hno, ?_⟩
    have hcong : ∀ e ∈ t.entries, (h.alloc k dflt).1.keyOf e = h.keyOf e := by
      intro e he
      unfold Heap.keyOf
      rw [alloc_cells h F k dflt (R.lt_next F he)]
    obtain ⟨i, t', h1, h2, h3, h4, h5⟩ := hins (h.alloc k dflt).1.keyOf h.next hcong
      (by simp [Heap.keyOf, Heap.alloc])
    refine ⟨t', ?_, ⟨Or.inr h2, ?_⟩, h3, h4, h5⟩
    · simp only [HashTable.insert, Heap.alloc] at h1 ⊢
      simp only [h1, Res.ok_bind]
      rfl
    · refine ((show (hat t').entries.Perm (h.next :: t.entries) from h3).map _).trans ?_
      simp only [List.map_cons]
      have e1 : (h.alloc k dflt).1.cells h.next = bcell (k, dflt) := by simp [Heap.alloc, bcell]
      rw [e1]
      refine List.Perm.cons _ ?_
      rw [List.map_congr_left (l := t.entries) (g := h.cells) (fun e he => alloc_cells h F k dflt (R.lt_next F he))]
      exact R.abs

theorem assign_debt (R : TRel hash h (hat t) m) (F : h.Fresh) (D : Debt f d t) (hd : d ≤ f) (hm : m.length < 1073643498) (k : K) (v : V) :
    ∃ h' t' p, HashTable.assign hash dflt h t k v = .ok (h', t', p, (m.lookup k).isSome) ∧ TRel hash h' (hat t') (m.set k v) ∧
      HStep h t h' t' ∧ h'.cells p = some ⟨k, v⟩ ∧ Debt f d t' ∧ (t.tombs = 0 → t'.tombs = 0) := by
  rcases insert_debt (dflt := dflt) R F D hd hm k with ⟨p, v0, hins, hp, hc, hl⟩ | ⟨hl, t', hins, R', hperm, D', hz⟩
  · obtain ⟨h', h1, h2, h3, h4, h5, _⟩ := setVal_sim (v := v) R F hp hc
    refine ⟨h', t, p, ?_, h2, ⟨h3.1, h3.2, h3.3, h3.4, h3.5⟩, h4, D, fun h => h⟩
    simp [HashTable.assign, hins, h1, hl]
  · have F' := alloc_fresh h F k dflt
    have hp' : h.next ∈ t'.entries := hperm.mem_iff.mpr List.mem_cons_self
    obtain ⟨h', h1, h2, h3, h4, h5, _⟩ := setVal_sim (v := v) R' F' hp' (k := k) (v0 := dflt) (by simp [Heap.alloc])
    have S : HStep h t (h.alloc k dflt).1 t' := by
      have := alloc_hstep (k := k) (v := dflt) (t' := t') F R hperm
      exact ⟨this.1, this.2, this.3, this.4, this.5⟩
    refine ⟨h', t', h.next, ?_, ?_, S.trans ⟨h3.1, h3.2, h3.3, h3.4, h3.5⟩, h4, D', hz⟩
    · simp [HashTable.assign, hins, h1, hl]
    · have e1 : FMap.set ((k, dflt) :: m) k v = FMap.set m k v := by
        simp only [FMap.set, FMap.erase]
        rw [List.filter_cons_of_neg (by simp)]
      rw [← e1]; exact h2

theorem erase_debt (R : TRel hash h (hat t) m) (F : h.Fresh) (D : Debt f d t) (hd : d ≤ f) (hm : m.length ≤ 1073643498) (k : K) :
    ∃ h' t', HashTable.erase hash h t k = .ok (h', t', (m.lookup k).isSome) ∧ TRel hash h' (hat t') (m.erase k) ∧
      HStep h t h' t' ∧ Debt f d t' ∧ (m.lookup k = none → t' = t) := by
  have hne : t.ne = m.length := R.ne_eq
  rcases Table.eraseE_debt R.good D hd (by omega) k with ⟨h1, hno⟩ | ⟨p, t', h1, hk, hp, W, D'⟩
  · have hl := R.none_of hno
    refine ⟨h, t, ?_, ?_, HStep.refl F (List.Perm.refl _), D, fun _ => rfl⟩
    · simp [HashTable.erase, h1, hl]
    · have : m.erase k = m := by
        unfold FMap.erase
        rw [List.filter_eq_self]
        rintro ⟨a, b⟩ hm
        simp
        rintro rfl
        exact FMap.lookup_none_iff.mp hl b hm
      rw [this]; exact R
  · have hpe : p ∈ t.entries := hp.mem_iff.mp List.mem_cons_self
    obtain ⟨v, hc, hl⟩ := R.of_key hpe hk
    have hnd := hp.nodup_iff.mpr (show t.entries.Nodup from R.nodup_addr)
    rw [List.nodup_cons] at hnd
    have hcells : ∀ e ∈ t'.entries, (if e = p then none else h.cells e) = h.cells e := by
      intro e he
      rw [if_neg]
      rintro rfl
      exact hnd.1 he
    refine ⟨⟨h.next, fun a => if a = p then none else h.cells a⟩, t', ?_, ⟨Or.inr (W.congr ?_), ?_⟩, ⟨?_, ?_, ?_, ?_, ?_⟩, D', ?_⟩
    · simp [HashTable.erase, h1, hl, Heap.free, hc]
    · intro e he
      unfold Heap.keyOf
      simp only
      rw [hcells e he]
    · simp only
      rw [List.map_congr_left (l := (hat t').entries) (g := h.cells) hcells]
      have h2 := (hp.map h.cells).trans ((show (t.entries.map h.cells).Perm (m.map bcell) from R.abs).trans ((FMap.perm_erase R.functional hl).map bcell))
      simp only [List.map_cons, hc, bcell] at h2
      exact (List.perm_cons _).mp h2
    · exact Nat.le_refl _
    · intro q hq
      simp only at hq ⊢
      split
      · rfl
      · exact F q hq
    · intro q _ hq
      simp only
      rw [if_neg]
      rintro rfl
      exact hq hpe
    · intro q hq; exact Or.inl (hp.mem_iff.mp (List.mem_cons_of_mem _ hq))
    · intro q hq
      simp only at hq
      by_cases hqp : q = p
      · simp [hqp] at hq
      · rw [if_neg hqp] at hq
        by_cases hqe : q ∈ t.entries
        · rcases List.mem_cons.mp (hp.mem_iff.mpr hqe) with h5 | h5
          · exact absurd h5 hqp
          · exact Or.inl h5
        · refine Or.inr ⟨?_, hqe⟩
          rcases Nat.lt_or_ge q h.next with h5 | h5
          · exact h5
          · exact absurd (F q h5) hq
    · intro h5; rw [hl] at h5; simp at h5

theorem clear_debt (R : TRel hash h (hat t) m) (F : h.Fresh) (D : Debt f d t) (hf : f ≤ 2) :
    ∃ h' t', HashTable.clear h t = .ok (h', t') ∧ TRel hash h' (hat t') [] ∧ HStep h t h' t' ∧ Debt f d t' ∧ (t.tombs = 0 → t'.tombs = 0) := by
  obtain ⟨h', t1, h1, h2, _, h3⟩ := clear_sim R F
  by_cases h0 : t.ne = 0
  · have e : HashTable.clear h (hat t) = .ok (h, hat t) := by simp [HashTable.clear, hat, h0]
    rw [e] at h1
    obtain ⟨rfl, rfl⟩ : h = h' ∧ hat t = t1 := by simpa using h1
    exact ⟨h, t, by simp [HashTable.clear, h0], h2, ⟨h3.1, h3.2, h3.3, h3.4, h3.5⟩, D, fun h => h⟩
  · have e : HashTable.clear h (hat t) = HashTable.clear h t := by
      have h0' : ¬ (hat t).ne = 0 := h0
      simp only [HashTable.clear, if_neg h0, if_neg h0']; rfl
    rw [e] at h1
    have : t1 = Table.null := by
      simp only [HashTable.clear, if_neg h0] at h1
      cases hx : Heap.freeAll h t.entries with
      | ok x => rw [hx] at h1; simp at h1; exact h1.2.symm
      | _ => rw [hx] at h1; simp at h1
    subst this
    exact ⟨h', Table.null, h1, h2, ⟨h3.1, h3.2, h3.3, h3.4, h3.5⟩, Or.inl ⟨rfl, hf⟩, fun _ => rfl⟩

theorem rehash_debt (R : TRel hash h (hat t) m) (F : h.Fresh) (D : Debt f d t) (hd : d ≤ f) (hm : m.length ≤ 1073643498) :
    ∃ t', HashTable.rehash t = .ok t' ∧ TRel hash h (hat t') m ∧ t'.entries.Perm t.entries ∧ Debt f d t' ∧ (t.tombs = 0 → t'.tombs = 0) := by
  have hne : t.ne = m.length := R.ne_eq
  rcases hat_cases R.good D with ⟨rfl, h2⟩ | ⟨W, hf, hnt⟩
  · refine ⟨Table.null, ?_, R, List.Perm.refl _, D, fun h => h⟩
    simp [HashTable.rehash, Table.mayRehash, Table.null, w32, sub32]
  · obtain ⟨t', h1, h2, h3, h4, h5⟩ := mayRehash_debt W.to1 hd hf hnt (by omega)
    exact ⟨t', h1, ⟨Or.inr h2, ((show (hat t').entries.Perm (hat t).entries from h3).map _).trans R.abs⟩, h3, h4, h5⟩

theorem rehashN_debt (R : TRel hash h (hat t) m) (F : h.Fresh) {n : Nat} (hm : m.length < n) (hn : n ≤ 1431655765) (hf : 8 * f < n) :
    ∃ t', HashTable.rehashN t n = .ok t' ∧ TRel hash h (hat t') m ∧ t'.entries.Perm t.entries ∧ Debt f d t' ∧ t'.tombs = 0 := by
  obtain ⟨t', h1, h2, h3, h4, h5⟩ := rehashN_sim R F hm hn
  have e : HashTable.rehashN (hat t) n = HashTable.rehashN t n := rfl
  rw [e] at h1
  have hz : t'.nt = 0 := by
    simp only [HashTable.rehashN, Table.doRehash] at h1
    split at h1
    · simp at h1
    · cases hx : rehashInto (w32 n) (List.take t.nb t.buckets) (List.replicate (w32 n) Bucket.zero) with
      | ok x => rw [hx] at h1; simp at h1; rw [← h1]
      | _ => rw [hx] at h1; simp at h1
  rcases h2.good with h6 | W
  · rw [h6] at h3; simp [Table.null] at h3
  · have ht : t'.tombs = 0 := by rw [← W.nt_eq]; exact hz
    have hh : hat t' = t' := by unfold hat; rw [ht, ← hz]
    refine ⟨t', h1, by rw [hh]; exact h2, h4, Or.inr ⟨by omega, 0, by omega, ?_⟩, ht⟩
    rw [hz, ht]; rfl

theorem lookup_hat (R : TRel hash h (hat t) m) (k : K) : HashTable.lookup hash h t k = .ok (m.lookup k) := lookup_sim R k

/-- an operation whose entry can be made -/
theorem step_debt (R : TRel hash h (hat t) m) (F : h.Fresh) (D : Debt f d t) (hd : d ≤ f) (hm : m.length ≤ 1073643498) (op : TOp K V) (hp : TPre m op)
    (hw : Wide f op) :
    ∃ h' t', HashTable.step hash dflt h t op = .ok (h', t', (tstep dflt m op).2) ∧ TRel hash h' (hat t') (tstep dflt m op).1 ∧
      HStep h t h' t' ∧ Debt f d t' ∧ ((tstep dflt m op).2 ≠ .erased true → t.tombs = 0 → t'.tombs = 0) := by
  cases op with
  | insert k =>
    rcases insert_debt (dflt := dflt) R F D hd hp k with ⟨p, v0, hins, hpe, hc, hl⟩ | ⟨hl, t', hins, R', hperm, D', hz⟩
    · refine ⟨h, t, ?_, ?_, HStep.refl F (List.Perm.refl _), D, fun _ h => h⟩
      · simp [HashTable.step, hins, Heap.getVal, hc, tstep, hl]
      · simp only [tstep, hl]; exact R
    · have S := alloc_hstep (k := k) (v := dflt) (t' := t') F R hperm
      refine ⟨(h.alloc k dflt).1, t', ?_, ?_, ⟨S.1, S.2, S.3, S.4, S.5⟩, D', fun _ h => hz h⟩
      · simp [HashTable.step, hins, Heap.getVal, Heap.alloc, tstep, hl]
      · simp only [tstep, hl]; exact R'
  | assign k v =>
    obtain ⟨h', t', p, h1, h2, h3, h5, h6, h7⟩ := assign_debt (dflt := dflt) R F D hd hp k v
    exact ⟨h', t', by simp [HashTable.step, h1, Heap.getVal, h5, tstep], h2, h3, h6, fun _ h => h7 h⟩
  | erase k =>
    obtain ⟨h', t', h1, h2, h3, h4, h5⟩ := erase_debt R F D hd hm k
    refine ⟨h', t', by simp [HashTable.step, h1, tstep], h2, h3, h4, ?_⟩
    intro hne hz
    have : m.lookup k = none := by
      cases hx : m.lookup k with
      | none => rfl
      | some v => exact absurd (by simp [tstep, hx]) hne
    rw [h5 this]; exact hz
  | find k =>
    exact ⟨h, t, by simp [HashTable.step, lookup_hat R k, tstep], R, HStep.refl F (List.Perm.refl _), D, fun _ h => h⟩
  | clear =>
    obtain ⟨h', t', h1, h2, h3, h4, h5⟩ := clear_debt R F D hw
    exact ⟨h', t', by simp [HashTable.step, h1, tstep], h2, h3, h4, fun _ h => h5 h⟩
  | rehash =>
    obtain ⟨t', h1, h2, h3, h4, h5⟩ := rehash_debt R F D hd hm
    exact ⟨h, t', by simp [HashTable.step, h1, tstep], h2, HStep.refl F h3, h4, fun _ h => h5 h⟩
  | rehashN n =>
    obtain ⟨hp1, hp2⟩ := hp
    obtain ⟨t', h1, h2, h3, h4, h5⟩ := rehashN_debt (d := d) R F hp1 (by omega) hw
    exact ⟨h, t', by simp [HashTable.step, h1, tstep], h2, HStep.refl F h3, h4, fun _ _ => h5⟩

/-- the failing insertion -/
theorem insertFail_debt (R : TRel hash h (hat t) m) (D : Debt f d t) (hd : d ≤ f) (k : K) :
    (∃ q v, insertFail hash h t k = .ok (t, some q) ∧ m.lookup k = some v) ∨
    (m.lookup k = none ∧ ∃ t', insertFail hash h t k = .ok (t', none) ∧ TRel hash h (hat t') m ∧ t'.entries = t.entries ∧ t'.tombs = t.tombs ∧
      Debt f (d + 1) t' ∧ (t.tombs = 0 → Debt f d t')) := by
  rcases lookup_debt R.good D k with ⟨i, b, e, h1, hi, hs, hk, he⟩ | ⟨hno, t0, j, b, W, hent, htom, hne, hf, ⟨d', hd', hnt⟩, hj, hfree, hreach, h1⟩
  · left
    obtain ⟨v, hc, hl⟩ := R.of_key he hk
    exact ⟨e, v, by simp only [insertFail, h1, Res.ok_bind, hi, hs], hl⟩
  · right
    refine ⟨R.none_of hno, ?_⟩
    have hse : slotEntry b = none := by rcases hfree with h | h <;> simp [slotEntry, h]
    obtain ⟨L, he, htm⟩ := Layout.rehashed (bs := t0.buckets) W.lay hj hse (hash k)
    have hjl := lt_of_get hj
    have hset2 : (t0.buckets.set j { b with hash := hash k })[j]? = some { b with hash := hash k } := by
      rw [List.getElem?_set_self hjl]
    have key : ∀ nt, TRel hash h (hat (⟨t0.init, t0.buckets.set j { b with hash := hash k }, t0.nb, t0.ne, nt⟩ : Table Nat)) m ∧
        (⟨t0.init, t0.buckets.set j { b with hash := hash k }, t0.nb, t0.ne, nt⟩ : Table Nat).entries = t.entries ∧
        (⟨t0.init, t0.buckets.set j { b with hash := hash k }, t0.nb, t0.ne, nt⟩ : Table Nat).tombs = t.tombs := by
      intro nt
      refine ⟨⟨Or.inr ⟨W.init, ?_, L, ?_, rfl, ?_, W.small⟩, ?_⟩, ?_, ?_⟩
      · have := W.len; simpa [hat] using this
      · have : t0.ne = (ents t0.buckets).length := W.ne_eq
        simp only [hat, entries_eq]; rw [he]; exact this
      · have : t0.ne + t0.tombs < t0.nb := W.room
        simp only [hat, tombs_eq] at this ⊢; rw [htm]; exact this
      · have : (hat (⟨t0.init, t0.buckets.set j { b with hash := hash k }, t0.nb, t0.ne, nt⟩ : Table Nat)).entries = (hat t).entries := by
          simp only [hat, entries_eq]; rw [he]; exact hent
        rw [this]; exact R.abs
      · rw [entries_eq]; simp only; rw [he]; exact hent
      · rw [tombs_eq]; simp only; rw [htm]; exact htom
    rcases hfree with hb | hb
    · obtain ⟨k1, k2, k3⟩ := key t0.nt
      have D' : Debt f d (⟨t0.init, t0.buckets.set j { b with hash := hash k }, t0.nb, t0.ne, t0.nt⟩ : Table Nat) :=
        Or.inr ⟨hf, d', hd', by rw [k3, ← htom]; exact hnt⟩
      refine ⟨_, ?_, k1, k2, k3, ?_, fun _ => D'⟩
      · simp only [insertFail, h1, Res.ok_bind, hset2]
        simp only [hb]
      · rcases D' with h | ⟨h, d1, h2, h3⟩
        · exact Or.inl h
        · exact Or.inr ⟨h, d1, by omega, h3⟩
    · obtain ⟨k1, k2, k3⟩ := key (sub32 t0.nt 1)
      have hpos : 0 < t.tombs := by
        rw [← htom, tombs_eq, tmb, List.countP_pos_iff]
        exact ⟨b, List.mem_of_getElem? hj, by simp [isTomb, hb]⟩
      refine ⟨_, ?_, k1, k2, k3, ?_, fun h => by omega⟩
      · simp only [insertFail, h1, Res.ok_bind, hset2]
        simp only [hb]
      · have hsm : t0.nb ≤ 1431655765 := W.small
        refine Or.inr ⟨hf, d' + 1, by omega, ?_⟩
        rw [k3, ← htom]; simp only; rw [hnt]; unfold sub32 w32; omega

/-- failures that count, when something has been removed before (`e`) or not -/
def lateFrom (e : Bool) (rs : List (TRep V)) : Nat := if e then faults rs else lateFaults rs

theorem faults_cons (r : TRep V) (rs : List (TRep V)) : faults (r :: rs) = (if isFault r then 1 else 0) + faults rs := by
  unfold faults; rw [List.countP_cons]; omega

theorem lateFrom_cons (e : Bool) (r : TRep V) (rs : List (TRep V)) :
    lateFrom e (r :: rs) = (if e && isFault r then 1 else 0) + lateFrom (e || isRemoval r) rs := by
  cases e with
  | true => simp [lateFrom, faults_cons]
  | false =>
    simp only [lateFrom, lateFaults, List.dropWhile_cons, Bool.false_and, Bool.false_or, if_false, Bool.false_eq_true, Nat.zero_add]
    cases hr : isRemoval r with
    | true =>
      have : isFault r = false := by
        cases r with
        | threw => simp [isRemoval] at hr
        | ret x => rfl
      simp [faults_cons, this]
    | false => simp

theorem faultStep_eq (dflt : V) (m : FMap K V) (f : FOp K V) :
    faultStep dflt m f = if (∃ k, keyIns f.1 = some k ∧ m.lookup k = none) ∧ f.2 = true then (m, .threw)
      else ((tstep dflt m f.1).1, .ret (tstep dflt m f.1).2) := by
  rcases f with ⟨op, b⟩
  cases op <;> cases b <;> simp [faultStep, keyIns]

theorem faultStep_length (hf : m.Functional) (hm : m.length ≤ 1073643498) (x : FOp K V) (hp : TPre m x.1) :
    (faultStep dflt m x).1.length ≤ 1073643498 := by
  rw [faultStep_eq]
  split
  · exact hm
  · exact tstep_length hf hm x.1 hp

theorem fault_step (R : TRel hash h (hat t) m) (F : h.Fresh) (D : Debt f d t) (hd : d ≤ f) (hm : m.length ≤ 1073643498) (x : FOp K V) (hp : TPre m x.1)
    (hw : Wide f x.1) (e : Bool) (he : e = false → t.tombs = 0) (l : Nat) :
    ∃ h' t', step hash dflt ⟨h, t, l⟩ x = .ok (⟨h', t', l + if isFault (faultStep dflt m x).2 then 1 else 0⟩, (faultStep dflt m x).2) ∧
      TRel hash h' (hat t') (faultStep dflt m x).1 ∧ HStep h t h' t' ∧
      Debt f (d + if e && isFault (faultStep dflt m x).2 then 1 else 0) t' ∧
      ((e || isRemoval (faultStep dflt m x).2) = false → t'.tombs = 0) := by
  have E := faultStep_eq dflt m x
  have normal : ∃ h' t', HashTable.step hash dflt h t x.1 = .ok (h', t', (tstep dflt m x.1).2) ∧ TRel hash h' (hat t') (tstep dflt m x.1).1 ∧ HStep h t h' t' ∧
      Debt f d t' ∧ ((e || isRemoval (.ret (tstep dflt m x.1).2 : TRep V)) = false → t'.tombs = 0) := by
    obtain ⟨h', t', h1, h2, h3, h4, h5⟩ := step_debt (dflt := dflt) R F D hd hm x.1 hp hw
    refine ⟨h', t', h1, h2, h3, h4, fun h6 => ?_⟩
    rw [Bool.or_eq_false_iff] at h6
    refine h5 ?_ (he h6.1)
    intro h7
    rw [h7] at h6
    simp [isRemoval] at h6
  cases hk : keyIns x.1 with
  | none =>
    rw [hk, if_neg (by simp)] at E
    rw [E]
    obtain ⟨h', t', h1, h2⟩ := normal
    refine ⟨h', t', ?_, by simpa [isFault] using h2⟩
    simp [step, hk, h1, isFault]
  | some k =>
    cases hb : x.2 with
    | false =>
      rw [hb, if_neg (by simp)] at E
      rw [E]
      obtain ⟨h', t', h1, h2⟩ := normal
      refine ⟨h', t', ?_, by simpa [isFault] using h2⟩
      simp [step, hk, hb, h1, isFault]
    | true =>
      rcases insertFail_debt R D hd k with ⟨q, v, h1, hl⟩ | ⟨hl, t', h1, h2, h3, h4, h5, h6⟩
      · rw [hk, if_neg (by simp [hl])] at E
        rw [E]
        obtain ⟨h', t', h2, h3⟩ := normal
        refine ⟨h', t', ?_, by simpa [isFault] using h3⟩
        simp [step, hk, hb, h1, h2, isFault]
      · rw [if_pos ⟨⟨k, hk, hl⟩, hb⟩] at E
        rw [E]
        refine ⟨h, t', ?_, h2, HStep.refl F (by rw [h3]), ?_, ?_⟩
        · simp [step, hk, hb, h1, isFault]
        · cases e with
          | true => simpa [isFault] using h5
          | false => simpa [isFault] using h6 (he rfl)
        · intro h7
          rw [Bool.or_eq_false_iff] at h7
          rw [h4]; exact he h7.1

theorem fault_run : ∀ (xs : List (FOp K V)) (h : Heap K V) (t : Table Nat) (m : FMap K V) (d : Nat) (e : Bool) (l : Nat), TRel hash h (hat t) m → h.Fresh → Debt f d t →
    m.length ≤ 1073643498 → FaultPres dflt m xs → (∀ x ∈ xs, Wide f x.1) → (e = false → t.tombs = 0) → d + lateFrom e (faultRuns dflt m xs).2 ≤ f →
    ∃ h' t' d' e', run hash dflt ⟨h, t, l⟩ xs = .ok (⟨h', t', l + faults (faultRuns dflt m xs).2⟩, (faultRuns dflt m xs).2) ∧
      TRel hash h' (hat t') (faultRuns dflt m xs).1 ∧ HStep h t h' t' ∧ (faultRuns dflt m xs).1.length ≤ 1073643498 ∧ Debt f d' t' ∧ d' ≤ f ∧
      e' = (e || (faultRuns dflt m xs).2.any isRemoval) ∧ (e' = false → t'.tombs = 0) := by
  intro xs
  induction xs with
  | nil =>
    intro h t m d e l R F D hm _ _ he hd
    exact ⟨h, t, d, e, rfl, R, HStep.refl F (List.Perm.refl _), hm, D, by omega, by simp [faultRuns], he⟩
  | cons x xs ih =>
    intro h t m d e l R F D hm hp hw he hd
    have e0 : faultRuns dflt m (x :: xs) = ((faultRuns dflt (faultStep dflt m x).1 xs).1, (faultStep dflt m x).2 :: (faultRuns dflt (faultStep dflt m x).1 xs).2) := rfl
    rw [e0] at hd ⊢
    simp only [lateFrom_cons] at hd
    obtain ⟨h1, t1, e1, R1, S1, D1, z1⟩ := fault_step (dflt := dflt) R F D (by omega) hm x hp.1 (hw x List.mem_cons_self) e he l
    obtain ⟨h2, t2, d2, e2, g1, R2, S2, l2, D2, hd2, he2, z2⟩ := ih h1 t1 _ _ _ (l + if isFault (faultStep dflt m x).2 then 1 else 0) R1 S1.fresh D1
      (faultStep_length R.functional hm x hp.1) hp.2 (fun y hy => hw y (List.mem_cons_of_mem _ hy)) z1 (by omega)
    refine ⟨h2, t2, d2, e2, ?_, R2, S1.trans S2, l2, D2, hd2, ?_, z2⟩
    · simp only [run, e1, Res.ok_bind, g1, faults_cons, Nat.add_assoc]
    · rw [he2]; simp [Bool.or_assoc]

theorem start_debt {n : Nat} (hn : n ≤ 1431524664) (hf : (f ≤ 2 ∧ (n = 0 ∨ 3 ≤ n)) ∨ 8 * f ≤ n) :
    TRel hash (Heap.empty : Heap K V) (hat (Table.new n)) ([] : FMap K V) ∧ Debt f 0 (Table.new n : Table Nat) ∧ (Table.new n : Table Nat).tombs = 0 := by
  have hz : (Table.new n : Table Nat).tombs = 0 ∧ (Table.new n : Table Nat).nt = 0 := by
    unfold Table.new
    split
    · exact ⟨by rw [tombs_eq]; exact tmb_replicate _, rfl⟩
    · exact ⟨rfl, rfl⟩
  have hh : hat (Table.new n : Table Nat) = Table.new n := by unfold hat; rw [hz.1, ← hz.2]
  refine ⟨by rw [hh]; exact new_rel hash hn, ?_, hz.1⟩
  by_cases h0 : n = 0
  · subst h0
    refine Or.inl ⟨rfl, by omega⟩
  · refine Or.inr ⟨?_, 0, by omega, by rw [hz.1, hz.2]; rfl⟩
    have hb := computeBucketSize_bounds n (by omega)
    have e1 : (Table.new n : Table Nat).nb = computeBucketSize n := by
      unfold Table.new
      rw [w32_of_lt (by omega), if_pos h0]
      simp [initTable, h0]
    rw [e1]
    by_cases hl : n ≤ 16
    · by_cases h3 : 3 ≤ n
      · have : ∀ n ≤ 16, 3 ≤ n → computeBucketSize n = 17 := by decide
        rw [this n hl h3]; omega
      · omega
    · omega

/-! ### `count` after a failure -/

theorem chainBegin_empty {E : Type} {keyOf : E → Option K} {t : Table E} {hv : UInt32} {k : K} (live : ∀ e ∈ ents t.buckets, ∃ k, keyOf e = some k)
    (hl : t.buckets.length = t.nb) {j : Nat} {b : Bucket E} (hj : t.buckets[j]? = some b) (hb : b.slot = .empty) (hh : b.hash = hv)
    (hno : ∀ e ∈ ents t.buckets, keyOf e ≠ some k) (hr : Reach t.buckets (hv.toNat % t.nb) j) :
    chainBeginLoop keyOf t hv k (hv.toNat % t.nb) (t.nb + 1) (hv.toNat % t.nb) = .ub .nullDeref := by
  obtain ⟨d, hd, hjd, hocc⟩ := hr
  rw [hl] at hd hjd
  rw [Nat.mod_add_mod] at hjd
  rw [show t.nb + 1 = (t.nb - d + 1) + d by omega, chainBegin_skip live hl hv.toNat d _ hd]
  · rw [← hjd]
    unfold chainBeginLoop
    simp [hj, hb, hh]
  · intro d' hd' b' hb' hst
    obtain ⟨b2, hb2, hne⟩ := hocc d' hd'
    rw [hl, Nat.mod_add_mod, hb'] at hb2
    have := Option.some.inj hb2
    subst this
    rcases hst with ⟨h1, _⟩ | ⟨e, h1, _, h2⟩
    · exact hne h1
    · exact hno e (mem_ents.mpr ⟨_, _, hb', h1⟩) h2

theorem count_fail (R : TRel hash h (hat t) m) (D : Debt f d t) (hz : t.tombs = 0) {k : K} (hl : m.lookup k = none) :
    ∃ t', insertFail hash h t k = .ok (t', none) ∧ HashTable.count hash h.keyOf t' k = .ub .nullDeref := by
  rcases lookup_debt R.good D k with ⟨i, b, e, h1, hi, hs, hk, he⟩ | ⟨hno, t0, j, b, W, hent, htom, hne, hf, ⟨d', hd', hnt⟩, hj, hfree, hreach, h1⟩
  · obtain ⟨v, _, hl2⟩ := R.of_key he hk
    rw [hl] at hl2; simp at hl2
  · have hb : b.slot = .empty := by
      rcases hfree with h | h
      · exact h
      · exfalso
        have hpos : 0 < t.tombs := by
          rw [← htom, tombs_eq, tmb, List.countP_pos_iff]
          exact ⟨b, List.mem_of_getElem? hj, by simp [isTomb, h]⟩
        omega
    have hse : slotEntry b = none := by simp [slotEntry, hb]
    obtain ⟨L, he, htm⟩ := Layout.rehashed (bs := t0.buckets) W.lay hj hse (hash k)
    have hjl := lt_of_get hj
    have hset2 : (t0.buckets.set j { b with hash := hash k })[j]? = some { b with hash := hash k } := by
      rw [List.getElem?_set_self hjl]
    have hlen : t0.buckets.length = t0.nb := W.len
    have hroom : t0.ne + t0.tombs < t0.nb := W.room
    refine ⟨{ t0 with buckets := t0.buckets.set j { b with hash := hash k } }, ?_, ?_⟩
    · simp only [insertFail, h1, Res.ok_bind, hset2]
      simp only [hb]
    · have hno' : ∀ e ∈ ents t0.buckets, h.keyOf e ≠ some k := fun e he => hno e (by rw [← hent]; exact he)
      have key := chainBegin_empty (keyOf := h.keyOf) (t := { t0 with buckets := t0.buckets.set j { b with hash := hash k } }) (hv := hash k) (k := k)
        (j := j) (b := { b with hash := hash k }) L.live (by simpa using hlen) hset2 hb rfl (by rw [he]; exact hno') (by
          refine Reach.mono (bs := t0.buckets) (by simp) ?_ hreach
          intro q bq hq hqs
          by_cases hqj : j = q
          · subst hqj
            rw [hj] at hq
            have := Option.some.inj hq
            subst this
            exact absurd hb hqs
          · exact ⟨bq, by simp only; rw [List.getElem?_set_ne hqj]; exact hq, hqs⟩)
      unfold HashTable.count HashTable.chainBegin
      simp only at key
      simp only [if_neg (by omega : ¬ t0.nb = 0), key, Res.ub_bind]

/-! ### copies that fail -/

theorem copyFail_spec : ∀ (bs : List (Bucket Nat)) (j : Nat) (h : Heap K V), h.Fresh → (∀ p ∈ ents bs, ∃ c, h.cells p = some c) → j < (ents bs).length →
    ∃ h' bs' xs r ys, copyFail h j bs = .ok (h', bs') ∧ h'.Fresh ∧ h.next ≤ h'.next ∧ (∀ p < h.next, h'.cells p = h.cells p) ∧
      ents bs' = xs ++ r :: ys ∧ h.next ≤ r ∧ h'.cells r = none ∧ xs.length = j ∧ ys = (ents bs).drop (j + 1) ∧ xs.Nodup ∧
      (∀ q ∈ xs, h.next ≤ q ∧ ∃ c, h'.cells q = some c) ∧ (∀ q, h'.cells q ≠ none → q < h.next ∨ q ∈ xs) := by
  intro bs
  induction bs with
  | nil => intro j h _ _ hj; simp at hj
  | cons b bs ih =>
    intro j h F hl hj
    rcases hb : b with ⟨bh, bsl⟩
    rw [hb] at hl hj
    have hlt : ∀ q c, h.cells q = some c → q < h.next := by
      intro q c hq
      rcases Nat.lt_or_ge q h.next with h1 | h1
      · exact h1
      · rw [F q h1] at hq; exact absurd hq (by simp)
    cases bsl with
    | empty =>
      obtain ⟨h', bs', xs, r, ys, h1, h2⟩ := ih j h F hl hj
      exact ⟨h', ⟨bh, .empty⟩ :: bs', xs, r, ys, by simp [copyFail, h1], h2⟩
    | tomb =>
      obtain ⟨h', bs', xs, r, ys, h1, h2⟩ := ih j h F hl hj
      exact ⟨h', ⟨bh, .tomb⟩ :: bs', xs, r, ys, by simp [copyFail, h1], h2⟩
    | full p =>
      rw [ents_full] at hl hj
      obtain ⟨c, hc⟩ := hl p List.mem_cons_self
      cases j with
      | zero =>
        refine ⟨⟨h.next + 1, h.cells⟩, ⟨bh, .full h.next⟩ :: bs, [], h.next, ents bs, by simp [copyFail, hc], ?_, by simp, fun _ _ => rfl, rfl, Nat.le_refl _, F _ (Nat.le_refl _), rfl, ?_, List.nodup_nil, by simp, ?_⟩
        · intro q hq; exact F q (by simp only at hq; omega)
        · rw [ents_full]; rfl
        · intro q hq
          left
          cases hx : h.cells q with
          | none => exact absurd hx hq
          | some c => exact hlt q c hx
      | succ j =>
        have hsub : ∀ q ∈ ents bs, ∃ c', (h.alloc c.key c.val).1.cells q = some c' := by
          intro q hq
          obtain ⟨c', hc'⟩ := hl q (List.mem_cons_of_mem _ hq)
          exact ⟨c', by rw [alloc_cells h F _ _ (hlt q c' hc'), hc']⟩
        obtain ⟨h', bs', xs, r, ys, h1, h2, h3, h4, h5, h6, h7, h8, h9, h10, h11, h12⟩ := ih j (h.alloc c.key c.val).1 (alloc_fresh h F _ _) hsub (by
          simp only [List.length_cons] at hj; omega)
        have hnext : (h.alloc c.key c.val).1.next = h.next + 1 := rfl
        have hnew : h'.cells h.next = some c := by rw [h4 h.next (by omega)]; simp [Heap.alloc]
        refine ⟨h', ⟨bh, .full h.next⟩ :: bs', h.next :: xs, r, ys, ?_, h2, by omega, ?_, ?_, by omega, h7, by simp [h8], ?_, ?_, ?_, ?_⟩
        · simp only [copyFail, hc]
          simp only [Heap.alloc] at h1 ⊢
          simp [h1]
        · intro q hq
          rw [h4 q (by omega), alloc_cells h F _ _ hq]
        · rw [ents_full, h5]; rfl
        · rw [ents_full, h9]; rfl
        · rw [List.nodup_cons]
          refine ⟨fun hm => ?_, h10⟩
          have := (h11 _ hm).1
          omega
        · intro q hq
          rcases List.mem_cons.mp hq with h13 | h13
          · subst h13; exact ⟨Nat.le_refl _, c, hnew⟩
          · exact ⟨by have := (h11 q h13).1; omega, (h11 q h13).2⟩
        · intro q hq
          rcases h12 q hq with h13 | h13
          · rcases Nat.lt_or_ge q h.next with h14 | h14
            · exact Or.inl h14
            · right; have : q = h.next := by omega
              rw [this]; exact List.mem_cons_self
          · right; exact List.mem_cons_of_mem _ h13

/-- releasing objects that exist, then a block without object -/
theorem freeAll_raw : ∀ (xs : List Nat) (r : Nat) (ys : List Nat) (h : Heap K V), xs.Nodup → (∀ q ∈ xs, ∃ c, h.cells q = some c) → h.cells r = none →
    h.freeAll (xs ++ r :: ys) = .ub .doubleFree := by
  intro xs
  induction xs with
  | nil => intro r ys h _ _ hr; simp [Heap.freeAll, Heap.free, hr]
  | cons x xs ih =>
    intro r ys h hnd hl hr
    obtain ⟨c, hc⟩ := hl x List.mem_cons_self
    rw [List.nodup_cons] at hnd
    have := ih r ys ⟨h.next, fun a => if a = x then none else h.cells a⟩ hnd.2 (by
      intro q hq
      obtain ⟨c', hc'⟩ := hl q (List.mem_cons_of_mem _ hq)
      exact ⟨c', by simp only; rw [if_neg, hc']; rintro rfl; exact hnd.1 hq⟩) (by simp [hr])
    simp [Heap.freeAll, Heap.free, hc, this]

theorem assignFail_ub (R : TRel hash h t m) (F : h.Fresh) (dst : Table Nat) {j : Nat} (hj : j < m.length) :
    ∃ h' t', assignFail h dst t j = .ok (h', t') ∧ (∀ p, p ∈ t.entries → h'.cells p = h.cells p) ∧ HashTable.destroy h' t' = .ub .doubleFree ∧
      TRel hash h' t m := by
  have hne := R.ne_eq
  have hlen : (ents t.buckets).length = m.length := by
    have := R.good.ne_eq; rw [entries_eq] at this; omega
  obtain ⟨h', bs', xs, r, ys, h1, h2, h3, h4, h5, h6, h7, h8, h9, h10, h11, h12⟩ := copyFail_spec t.buckets j h F (fun p hp => R.live hp) (by omega)
  have hcell : ∀ p, p ∈ t.entries → h'.cells p = h.cells p := fun p hp => h4 p (R.lt_next F hp)
  refine ⟨h', { t with init := true, buckets := bs' }, by simp [assignFail, h1], hcell, ?_, R.congr hcell⟩
  unfold HashTable.destroy HashTable.clear
  have h0 : ¬ ({ t with init := true, buckets := bs' } : Table Nat).ne = 0 := by simp only; omega
  rw [if_neg h0, entries_eq]
  simp only
  rw [h5, freeAll_raw xs r ys h' h10 (fun q hq => (h11 q hq).2) h7]
  rfl

theorem newCopyFail_spec (R : TRel hash h t m) (F : h.Fresh) {j : Nat} (hj : j < m.length) :
    ∃ h', newCopyFail h t j = .ok h' ∧ TRel hash h' t m ∧ h'.Fresh ∧
      ∃ xs : List Nat, xs.length = j ∧ xs.Nodup ∧ (∀ q ∈ xs, (∃ c, h'.cells q = some c) ∧ h.cells q = none) ∧ (∀ q, h'.cells q ≠ none → h.cells q ≠ none ∨ q ∈ xs) := by
  have hne := R.ne_eq
  have hlen : (ents t.buckets).length = m.length := by
    have := R.good.ne_eq; rw [entries_eq] at this; omega
  obtain ⟨h', bs', xs, r, ys, h1, h2, h3, h4, h5, h6, h7, h8, h9, h10, h11, h12⟩ := copyFail_spec t.buckets j h F (fun p hp => R.live hp) (by omega)
  have hcell : ∀ p, p ∈ t.entries → h'.cells p = h.cells p := fun p hp => h4 p (R.lt_next F hp)
  refine ⟨h', by simp [newCopyFail, h1], R.congr hcell, h2, xs, h8, h10, ?_, ?_⟩
  · intro q hq
    exact ⟨(h11 q hq).2, F q (h11 q hq).1⟩
  · intro q hq
    rcases h12 q hq with h13 | h13
    · left; rw [← h4 q h13]; exact hq
    · exact Or.inr h13

end HThr
end Eni
