import Verif.Proofs.HashLayout
/-!
# Invariants of the hash table: rehashing, insertion, removal

Helper lemmas, no property statements.
-/
set_option linter.unusedSectionVars false
set_option linter.unusedVariables false

namespace Eni
namespace Table

variable {E K : Type}

/-- stored hash and entry of a full bucket -/
def slotFull (b : Bucket E) : Option (UInt32 × E) := match b.slot with | .full e => some (b.hash, e) | _ => none

abbrev fulls (bs : List (Bucket E)) : List (UInt32 × E) := bs.filterMap slotFull

theorem fulls_map (bs : List (Bucket E)) : (fulls bs).map Prod.snd = ents bs := by
  induction bs with
  | nil => rfl
  | cons b bs ih =>
    rcases b with ⟨h, s⟩
    simp only [fulls, ents, List.filterMap_cons] at ih ⊢
    cases s <;> simp [slotFull, slotEntry, ih]

theorem fulls_length (bs : List (Bucket E)) : (fulls bs).length = (ents bs).length := by
  rw [← fulls_map, List.length_map]

theorem mem_fulls {bs : List (Bucket E)} {h : UInt32} {e : E} :
    (h, e) ∈ fulls bs ↔ ∃ b ∈ bs, b.slot = .full e ∧ b.hash = h := by
  simp only [fulls, List.mem_filterMap]
  constructor
  · rintro ⟨b, hb, hs⟩
    refine ⟨b, hb, ?_⟩
    unfold slotFull at hs
    cases h1 : b.slot <;> simp_all
  · rintro ⟨b, hb, hs, hh⟩
    exact ⟨b, hb, by simp [slotFull, hs, hh]⟩

theorem fulls_set {bs : List (Bucket E)} {i : Nat} {b : Bucket E} {h : UInt32} {e : E}
    (hi : bs[i]? = some b) (hs : b.slot = .empty) :
    (fulls (bs.set i ⟨h, .full e⟩)).Perm ((h, e) :: fulls bs) := by
  rw [set_at hi]
  conv => rhs; rw [split_at hi]
  simp only [fulls, List.filterMap_append, List.filterMap_cons]
  simp only [slotFull, hs]
  exact List.perm_middle

theorem placeLoop_skip {bs : List (Bucket E)} (pos : 0 < bs.length) (s d fuel : Nat)
    (hns : ∀ d' < d, ∀ b, bs[(s + d') % bs.length]? = some b → b.slot ≠ .empty) :
    placeLoop bs bs.length (fuel + d) (s % bs.length) = placeLoop bs bs.length fuel ((s + d) % bs.length) := by
  induction d generalizing fuel with
  | zero => rfl
  | succ d ih =>
    rw [show fuel + (d + 1) = (fuel + 1) + d by omega, ih _ (fun d' hd' => hns d' (by omega))]
    obtain ⟨b, hb⟩ := get_of_lt (Nat.mod_lt (s + d) pos)
    have hs := hns d (by omega) b hb
    rw [← nextIdx_add pos]
    conv => lhs; unfold placeLoop
    simp only [hb]

theorem placeLoop_spec {bs : List (Bucket E)} (room : (ents bs).length + tmb bs < bs.length) (s : Nat) :
    ∃ j b, bs[j]? = some b ∧ b.slot = .empty ∧ Reach bs (s % bs.length) j ∧
      placeLoop bs bs.length (bs.length + 1) (s % bs.length) = .ok j := by
  obtain ⟨i, b, hb, he⟩ := exists_empty room
  have pos : 0 < bs.length := by have := lt_of_get hb; omega
  obtain ⟨d0, hd0, hd0i⟩ := dist_exists (s := s) (lt_of_get hb)
  obtain ⟨d, ⟨b', hb', hs'⟩, hmin⟩ := first_stop (P := fun d => ∃ b, bs[(s + d) % bs.length]? = some b ∧ b.slot = .empty)
    ⟨d0, b, by rw [hd0i]; exact hb, he⟩
  have hd : d < bs.length := by
    rcases Nat.lt_or_ge d0 d with h | h
    · exact absurd ⟨b, by rw [hd0i]; exact hb, he⟩ (hmin d0 h)
    · omega
  have hns : ∀ d' < d, ∀ b, bs[(s + d') % bs.length]? = some b → b.slot ≠ .empty :=
    fun d' hd' b hb he => hmin d' hd' ⟨b, hb, he⟩
  refine ⟨(s + d) % bs.length, b', hb', hs', ⟨d, hd, by rw [Nat.mod_add_mod], ?_⟩, ?_⟩
  · intro d' hd'
    obtain ⟨b2, hb2⟩ := get_of_lt (Nat.mod_lt (s + d') pos)
    exact ⟨b2, by rw [Nat.mod_add_mod]; exact hb2, hns d' hd' b2 hb2⟩
  · have := placeLoop_skip pos s d (bs.length - d + 1) hns
    rw [show bs.length - d + 1 + d = bs.length + 1 by omega] at this
    rw [this]
    unfold placeLoop
    simp [hb', hs']

/-- every entry is reachable from the home position of its stored hash -/
def Reachable (bs : List (Bucket E)) : Prop :=
  ∀ (i : Nat) b e, bs[i]? = some b → b.slot = .full e → Reach bs (b.hash.toNat % bs.length) i

theorem rehashInto_spec (n : Nat) : ∀ (old acc : List (Bucket E)), acc.length = n → tmb acc = 0 → Reachable acc →
    (ents acc).length + (ents old).length ≤ n →
    ∃ r, rehashInto n old acc = .ok r ∧ r.length = n ∧ tmb r = 0 ∧ Reachable r ∧
      (fulls r).Perm (fulls acc ++ fulls old) := by
  intro old
  induction old with
  | nil =>
    intro acc hl ht hr _
    exact ⟨acc, rfl, hl, ht, hr, by simp⟩
  | cons b rest ih =>
    intro acc hl ht hr hroom
    unfold rehashInto
    cases hs : b.slot with
    | empty =>
      have h1 : slotEntry b = none := by simp [slotEntry, hs]
      have h2 : slotFull b = none := by simp [slotFull, hs]
      simp only [ents, List.filterMap_cons, h1] at hroom
      obtain ⟨r, h⟩ := ih acc hl ht hr hroom
      exact ⟨r, by simpa [fulls, List.filterMap_cons, h2] using h⟩
    | tomb =>
      have h1 : slotEntry b = none := by simp [slotEntry, hs]
      have h2 : slotFull b = none := by simp [slotFull, hs]
      simp only [ents, List.filterMap_cons, h1] at hroom
      obtain ⟨r, h⟩ := ih acc hl ht hr hroom
      exact ⟨r, by simpa [fulls, List.filterMap_cons, h2] using h⟩
    | full e =>
      have h1 : slotEntry b = some e := by simp [slotEntry, hs]
      have h2 : slotFull b = some (b.hash, e) := by simp [slotFull, hs]
      simp only [ents, List.filterMap_cons, h1, List.length_cons] at hroom
      have hn : n ≠ 0 := by omega
      obtain ⟨j, bj, hj, hje, hjr, hpl⟩ := placeLoop_spec (bs := acc) (by simp only [ents]; omega) b.hash.toNat
      rw [hl] at hpl
      simp only [if_neg hn, hpl, Res.ok_bind]
      have hset : (fulls (acc.set j ⟨b.hash, .full e⟩)).Perm ((b.hash, e) :: fulls acc) := fulls_set hj hje
      have hlen : (ents (acc.set j ⟨b.hash, .full e⟩)).length = (ents acc).length + 1 := by
        rw [← fulls_length, hset.length_eq, List.length_cons, fulls_length]
      have hA : tmb (acc.set j ⟨b.hash, .full e⟩) = 0 := by
        have := tmb_set (b' := ⟨b.hash, .full e⟩) hj
        rw [ht] at this
        simpa [isTomb, hje] using this
      have hB : Reachable (acc.set j ⟨b.hash, .full e⟩) := by
        intro i b' e' hi hs'
        rw [List.length_set]
        refine Reach.mono (bs := acc) (by simp) (occ_set (by simp)) ?_
        rcases Nat.decEq j i with h | h
        · rw [List.getElem?_set_ne h] at hi
          exact hr i b' e' hi hs'
        · subst h
          rw [List.getElem?_set_self (lt_of_get hj)] at hi
          have := Option.some.inj hi
          subst this
          exact hjr
      obtain ⟨r, hr1, hr2, hr3, hr4, hr5⟩ := ih (acc.set j ⟨b.hash, .full e⟩) (by simp [hl]) hA hB (by rw [hlen]; simp only [ents]; omega)
      refine ⟨r, hr1, hr2, hr3, hr4, hr5.trans ?_⟩
      simp only [fulls, List.filterMap_cons, h2]
      exact (hset.append_right _).trans List.perm_middle.symm

theorem tmb_replicate (n : Nat) : tmb (List.replicate n (Bucket.zero : Bucket E)) = 0 := by
  simp [tmb, List.countP_replicate, isTomb, Bucket.zero]

theorem ents_replicate (n : Nat) : ents (List.replicate n (Bucket.zero : Bucket E)) = [] := by
  rw [ents, List.filterMap_eq_nil_iff]
  intro b hb
  rw [List.eq_of_mem_replicate hb]
  rfl

theorem reachable_replicate (n : Nat) : Reachable (List.replicate n (Bucket.zero : Bucket E)) := by
  intro i b e hi hs
  have := List.eq_of_mem_replicate (List.mem_of_getElem? hi)
  subst this
  simp [Bucket.zero] at hs

theorem fulls_replicate (n : Nat) : fulls (List.replicate n (Bucket.zero : Bucket E)) = [] := by
  rw [fulls, List.filterMap_eq_nil_iff]
  intro b hb
  rw [List.eq_of_mem_replicate hb]
  rfl

theorem Layout.of_perm {hash : K → UInt32} {keyOf : E → Option K} {bs bs' : List (Bucket E)}
    (L : Layout hash keyOf bs) (hp : (fulls bs').Perm (fulls bs)) (hr : Reachable bs') : Layout hash keyOf bs' := by
  refine ⟨?_, hr, ?_⟩
  · intro b hb e hs
    have : (b.hash, e) ∈ fulls bs := hp.mem_iff.mp (mem_fulls.mpr ⟨b, hb, hs, rfl⟩)
    obtain ⟨b2, hb2, hs2, hh2⟩ := mem_fulls.mp this
    obtain ⟨k, hk, hh⟩ := L.hashOk b2 hb2 e hs2
    exact ⟨k, hk, by rw [← hh2, hh]⟩
  · have : ((ents bs').map keyOf).Perm ((ents bs).map keyOf) := by
      rw [← fulls_map, ← fulls_map]; exact (hp.map _).map _
    exact this.nodup_iff.mpr L.nodup

/-- The invariant of an initialised table. -/
structure WF (hash : K → UInt32) (keyOf : E → Option K) (t : Table E) : Prop where
  init : t.init = true
  len : t.buckets.length = t.nb
  lay : Layout hash keyOf t.buckets
  ne_eq : t.ne = t.entries.length
  nt_eq : t.nt = t.tombs
  room : t.ne + t.nt < t.nb
  small : t.nb ≤ 1431655765

/-- As `WF`, but the table may be completely full (state between the store of a new entry and `mayRehash`). -/
structure WF1 (hash : K → UInt32) (keyOf : E → Option K) (t : Table E) : Prop where
  init : t.init = true
  len : t.buckets.length = t.nb
  lay : Layout hash keyOf t.buckets
  ne_eq : t.ne = t.entries.length
  nt_eq : t.nt = t.tombs
  room : t.ne + t.nt ≤ t.nb
  pos : 0 < t.nb
  small : t.nb ≤ 1431655765

theorem doRehash_spec {hash : K → UInt32} {keyOf : E → Option K} {t : Table E} (len : t.buckets.length = t.nb)
    (lay : Layout hash keyOf t.buckets) (ne_eq : t.ne = t.entries.length) {n : Nat} (hn : t.ne ≤ n) :
    ∃ t', doRehash t n = .ok t' ∧ t'.init = true ∧ t'.nb = n ∧ t'.buckets.length = n ∧ Layout hash keyOf t'.buckets ∧
      t'.entries.Perm t.entries ∧ t'.ne = t.ne ∧ t'.ne = t'.entries.length ∧ t'.nt = 0 ∧ t'.tombs = 0 := by
  rw [entries_eq] at ne_eq
  obtain ⟨r, h1, h2, h3, h4, h5⟩ := rehashInto_spec n (t.buckets.take t.nb) (List.replicate n Bucket.zero) (by simp)
    (tmb_replicate n) (reachable_replicate n) (by
      rw [ents_replicate, List.take_of_length_le (by omega)]; simp only [List.length_nil]; omega)
  rw [List.take_of_length_le (by omega)] at h1 h5
  rw [fulls_replicate, List.nil_append] at h5
  have hent : (ents r).Perm (ents t.buckets) := by
    rw [← fulls_map, ← fulls_map]; exact h5.map _
  refine ⟨⟨true, r, n, t.ne, 0⟩, ?_, rfl, rfl, h2, lay.of_perm h5 h4, hent, rfl, ?_, rfl, h3⟩
  · unfold doRehash
    rw [if_neg (by omega), List.take_of_length_le (by omega), h1]
    rfl
  · simp only [entries_eq]; rw [ne_eq, hent.length_eq]

/-! ### compute_bucket_size -/

theorem computeBucketSizeFrom_cases (n : Nat) (l : List Nat) :
    (computeBucketSizeFrom n l = w32 (n + 131101) ∧ ∀ s ∈ l, s ≤ n) ∨
    (computeBucketSizeFrom n l ∈ l ∧ n < computeBucketSizeFrom n l) := by
  induction l with
  | nil => left; simp [computeBucketSizeFrom]
  | cons s l ih =>
    unfold computeBucketSizeFrom
    split
    · right; simp_all
    · rename_i h
      rcases ih with ⟨h1, h2⟩ | ⟨h1, h2⟩
      · left
        refine ⟨h1, fun x hx => ?_⟩
        rcases List.mem_cons.mp hx with rfl | hx
        · omega
        · exact h2 x hx
      · right; exact ⟨List.mem_cons_of_mem _ h1, h2⟩

theorem computeBucketSize_bounds (n : Nat) (h : n < 4000000000) :
    n < computeBucketSize n ∧ (computeBucketSize n ≤ n + 131101 ∨ computeBucketSize n ≤ 196613) := by
  have hmax : ∀ s ∈ bucketSizes, s ≤ 196613 := by decide
  rcases computeBucketSizeFrom_cases n bucketSizes with ⟨h1, h2⟩ | ⟨h1, h2⟩
  · rw [w32_of_lt (by omega)] at h1
    unfold computeBucketSize; omega
  · have := hmax _ h1
    unfold computeBucketSize; omega

/-- sizes `compute_bucket_size` can return -/
def SizeOk (n : Nat) : Prop := n ∈ bucketSizes ∨ 196613 < n

theorem computeBucketSize_sizeOk (n : Nat) (h : n < 4000000000) : SizeOk (computeBucketSize n) := by
  rcases computeBucketSizeFrom_cases n bucketSizes with ⟨h1, h2⟩ | ⟨h1, h2⟩
  · right
    rw [w32_of_lt (by omega)] at h1
    have := h2 196613 (by decide)
    unfold computeBucketSize; omega
  · left; exact h1

theorem computeBucketSize_gap (n : Nat) (h : n < 4000000000) (hs : SizeOk n) : n + 2 ≤ computeBucketSize n := by
  rcases hs with hs | hs
  · have : ∀ s ∈ bucketSizes, s + 2 ≤ computeBucketSize s := by decide
    exact this n hs
  · have hmax : ∀ s ∈ bucketSizes, s ≤ 196613 := by decide
    rcases computeBucketSizeFrom_cases n bucketSizes with ⟨h1, h2⟩ | ⟨h1, h2⟩
    · rw [w32_of_lt (by omega)] at h1
      unfold computeBucketSize; omega
    · have := hmax _ h1
      omega

/-- `mayRehash` on a table with exact counters. -/
theorem mayRehash_spec {hash : K → UInt32} {keyOf : E → Option K} {t : Table E} (W : WF1 hash keyOf t)
    (hne : t.ne ≤ 1073643498) :
    ∃ t', mayRehash t = .ok t' ∧ WF hash keyOf t' ∧ t'.entries.Perm t.entries ∧
      ((t' = t ∧ 4 * t.ne ≤ 3 * t.nb ∧ t.nb ≤ 8 * (t.nb - (t.ne + t.nt))) ∨
       (t'.nb = t.nb ∧ t'.nt = 0 ∧ 4 * t.ne ≤ 3 * t.nb ∧ t'.ne = t.ne) ∨
       (t'.nb = computeBucketSize t.nb ∧ t'.nt = 0 ∧ 3 * t.nb < 4 * t.ne ∧ t'.ne = t.ne)) := by
  have hs := W.small
  have hr := W.room
  have hp := W.pos
  unfold mayRehash
  rw [w32_of_lt (by omega : t.ne * 4 < _), w32_of_lt (by omega : t.nb * 3 < _), w32_of_lt (by omega : t.ne + t.nt < _),
    sub32_of_le (by omega) (by omega)]
  -- the product may wrap; it is then too small, and the table is rehashed earlier than needed
  have hw : w32 ((t.nb - (t.ne + t.nt)) * 8) ≤ (t.nb - (t.ne + t.nt)) * 8 := Nat.mod_le _ _
  have hw' : (t.nb - (t.ne + t.nt)) * 8 < 4294967296 → w32 ((t.nb - (t.ne + t.nt)) * 8) = (t.nb - (t.ne + t.nt)) * 8 := w32_of_lt
  have hb := computeBucketSize_bounds t.nb (by omega)
  split
  · rename_i h
    obtain ⟨t', h1, h2, h3, h4, h5, h6, h7, h8, h9, h10⟩ := doRehash_spec W.len W.lay W.ne_eq (n := computeBucketSize t.nb) (by omega)
    refine ⟨t', h1, ⟨h2, by omega, h5, h8, by omega, by omega, by omega⟩, h6, Or.inr (Or.inr ⟨h3, h9, by omega, h7⟩)⟩
  · rename_i h
    split
    · rename_i h'
      obtain ⟨t', h1, h2, h3, h4, h5, h6, h7, h8, h9, h10⟩ := doRehash_spec W.len W.lay W.ne_eq (n := t.nb) (by omega)
      refine ⟨t', h1, ⟨h2, by omega, h5, h8, by omega, by omega, by omega⟩, h6, Or.inr (Or.inl ⟨h3, h9, by omega, h7⟩)⟩
    · rename_i h'
      exact ⟨t, rfl, ⟨W.init, W.len, W.lay, W.ne_eq, W.nt_eq, by omega, W.small⟩, List.Perm.refl _,
        Or.inl ⟨rfl, by omega, by omega⟩⟩

theorem WF.to1 {hash : K → UInt32} {keyOf : E → Option K} {t : Table E} (W : WF hash keyOf t) : WF1 hash keyOf t :=
  ⟨W.init, W.len, W.lay, W.ne_eq, W.nt_eq, Nat.le_of_lt W.room, by have := W.room; omega, W.small⟩

theorem WF.congr {hash : K → UInt32} {keyOf keyOf' : E → Option K} {t : Table E} (W : WF hash keyOf t)
    (h : ∀ e ∈ t.entries, keyOf' e = keyOf e) : WF hash keyOf' t :=
  ⟨W.init, W.len, W.lay.congr h, W.ne_eq, W.nt_eq, W.room, W.small⟩

/-- a table without bucket array -/
def Uninit (t : Table E) : Prop := t = null

/-- the tables on which every operation is defined: no array at all, or a well-formed one -/
def Good (hash : K → UInt32) (keyOf : E → Option K) (t : Table E) : Prop := t = null ∨ WF hash keyOf t

theorem initTable_wf (hash : K → UInt32) (keyOf : E → Option K) {n : Nat} (hn : n ≤ 1431524664) :
    WF hash keyOf (initTable n : Table E) ∧ (initTable n : Table E).entries = [] := by
  have hb := computeBucketSize_bounds n (by omega)
  have key : ∀ m, 0 < m → m ≤ 1431655765 → WF hash keyOf (⟨true, List.replicate m Bucket.zero, m, 0, 0⟩ : Table E) := by
    intro m hm hm2
    refine ⟨rfl, by simp, ⟨?_, reachable_replicate m, ?_⟩, ?_, ?_, by simpa using hm, hm2⟩
    · intro b hb e hs
      rw [List.eq_of_mem_replicate hb] at hs
      simp [Bucket.zero] at hs
    · rw [ents_replicate]; simp
    · rw [entries_eq]; simp only [ents_replicate]; rfl
    · rw [tombs_eq]; simp only [tmb_replicate]
  unfold initTable
  refine ⟨?_, ents_replicate _⟩
  simp only
  split
  · exact key _ (by omega) (by omega)
  · exact key _ (by omega) (by omega)

theorem new_good (hash : K → UInt32) (keyOf : E → Option K) {n : Nat} (hn : n ≤ 1431524664) :
    Good hash keyOf (new n : Table E) ∧ (new n : Table E).entries = [] := by
  unfold new
  rw [w32_of_lt (by omega)]
  split
  · exact ⟨Or.inr (initTable_wf hash keyOf hn).1, (initTable_wf hash keyOf hn).2⟩
  · exact ⟨Or.inl rfl, rfl⟩

section
variable [DecidableEq K]

theorem WF.findKey_spec {hash : K → UInt32} {keyOf : E → Option K} {t : Table E} (W : WF hash keyOf t) (k : K) :
    (findKey hash keyOf t k = .ok none ∧ ∀ e ∈ t.entries, keyOf e ≠ some k) ∨
    (∃ (i : Nat) (b : Bucket E) (e : E), findKey hash keyOf t k = .ok (some i) ∧ t.buckets[i]? = some b ∧ b.slot = .full e ∧
      keyOf e = some k) := by
  have hr := W.room
  have hroom : (ents t.buckets).length + tmb t.buckets < t.buckets.length := by
    have h1 := W.ne_eq; have h2 := W.nt_eq; rw [entries_eq] at h1; rw [tombs_eq] at h2; rw [W.len]; omega
  unfold findKey
  rw [if_neg (by simp [W.init]), if_neg (by omega), ← W.len]
  exact W.lay.findLoop_spec hroom k

theorem findE_spec {hash : K → UInt32} {keyOf : E → Option K} {t : Table E} (G : Good hash keyOf t) (k : K) :
    (findE hash keyOf t k = .ok none ∧ ∀ e ∈ t.entries, keyOf e ≠ some k) ∨
    (∃ e, findE hash keyOf t k = .ok (some e) ∧ e ∈ t.entries ∧ keyOf e = some k) := by
  rcases G with rfl | W
  · left; exact ⟨rfl, by simp [entries, null]⟩
  · rcases W.findKey_spec k with ⟨h, hno⟩ | ⟨i, b, e, h, hi, hs, hk⟩
    · left; exact ⟨by simp [findE, h], hno⟩
    · right
      exact ⟨e, by simp [findE, h, hi, hs], mem_ents.mpr ⟨i, b, hi, hs⟩, hk⟩

theorem eraseE_spec {hash : K → UInt32} {keyOf : E → Option K} {t : Table E} (G : Good hash keyOf t)
    (hne : t.ne ≤ 1073643498) (k : K) :
    (eraseE hash keyOf t k = .ok (t, none) ∧ ∀ e ∈ t.entries, keyOf e ≠ some k) ∨
    (∃ e t' u, eraseE hash keyOf t k = .ok (t', some e) ∧ keyOf e = some k ∧ (e :: t'.entries).Perm t.entries ∧
      WF hash keyOf t' ∧ WF1 hash keyOf u ∧ mayRehash u = .ok t' ∧ u.nb = t.nb ∧ u.ne + 1 = t.ne ∧ u.nt = t.nt + 1) := by
  rcases G with rfl | W
  · left; exact ⟨rfl, by simp [entries, null]⟩
  · rcases W.findKey_spec k with ⟨h, hno⟩ | ⟨i, b, e, h, hi, hs, hk⟩
    · left; exact ⟨by simp [eraseE, h], hno⟩
    · right
      have hil := lt_of_get hi
      have hl := W.len
      have hsm := W.small
      have hroom := W.room
      obtain ⟨L', hp⟩ := W.lay.erase hi hs
      have hne_eq := W.ne_eq
      have hnt_eq := W.nt_eq
      rw [entries_eq] at hne_eq
      rw [tombs_eq] at hnt_eq
      have hlen := hp.length_eq
      simp only [List.length_cons] at hlen
      have hnepos : 1 ≤ t.ne := by omega
      have ht := tmb_set (b' := { b with slot := .tomb }) hi
      simp only [isTomb, hs] at ht
      simp at ht
      refine ⟨e, ?_⟩
      have W1 : WF1 hash keyOf { t with buckets := t.buckets.set i { b with slot := .tomb }, ne := sub32 t.ne 1, nt := w32 (t.nt + 1) } := by
        rw [sub32_of_le hnepos (by omega), w32_of_lt (by omega)]
        refine ⟨W.init, by simpa using hl, L', ?_, ?_, by simp only; omega, by simp only; omega, hsm⟩
        · simp only [entries_eq]; omega
        · simp only [tombs_eq]; simp only [tmb] at ht hnt_eq ⊢; omega
      have hsub : sub32 t.ne 1 = t.ne - 1 := sub32_of_le hnepos (by omega)
      obtain ⟨t', h1, h2, h3, h4⟩ := mayRehash_spec W1 (by simp only [hsub]; omega)
      refine ⟨t', _, ?_, hk, (List.Perm.cons e h3).trans hp, h2, W1, h1, rfl, ?_, ?_⟩
      · simp only [eraseE, h, Res.ok_bind, if_pos (by omega : i < 2147483648), hi, hs, h1]
      · simp only [hsub]; omega
      · simp only; rw [w32_of_lt (by omega)]

theorem insertE_spec {hash : K → UInt32} {keyOf : E → Option K} {t : Table E} (G : Good hash keyOf t)
    (hne : t.ne < 1073643498) (k : K) :
    (∃ i b e, (∀ mk, insertE hash keyOf t k mk = .ok (t, i, true)) ∧ t.buckets[i]? = some b ∧ b.slot = .full e ∧
        keyOf e = some k ∧ e ∈ t.entries) ∨
    ((∀ e ∈ t.entries, keyOf e ≠ some k) ∧ ∀ (keyOf' : E → Option K) mk, (∀ e ∈ t.entries, keyOf' e = keyOf e) →
      keyOf' mk = some k → ∃ i t' t0 u, insertE hash keyOf t k mk = .ok (t', i, false) ∧ WF hash keyOf' t' ∧
        t'.entries.Perm (mk :: t.entries) ∧ (t0 = t ∨ (t = null ∧ t0 = initTable 16)) ∧
        WF1 hash keyOf' u ∧ mayRehash u = .ok t' ∧ u.nb = t0.nb ∧ u.ne = t0.ne + 1 ∧ u.ne + u.nt ≥ t0.ne + t0.nt) := by
  -- the table after the lazy initialisation
  obtain ⟨t0, ht0, W, hent, hne0⟩ : ∃ t0 : Table E, (if t.init = false then initTable 16 else t) = t0 ∧ WF hash keyOf t0 ∧
      t0.entries = t.entries ∧ ((t0 = t ∨ (t = null ∧ t0 = initTable 16)) ∧ t0.ne = t.ne) := by
    rcases G with rfl | W
    · refine ⟨initTable 16, rfl, (initTable_wf hash keyOf (by omega)).1, ?_, Or.inr ⟨rfl, rfl⟩, rfl⟩
      rw [(initTable_wf hash keyOf (by omega)).2]; rfl
    · exact ⟨t, by rw [if_neg (by simp [W.init])], W, rfl, Or.inl rfl, rfl⟩
  have hr := W.room
  have hroom : (ents t0.buckets).length + tmb t0.buckets < t0.buckets.length := by
    have h1 := W.ne_eq; have h2 := W.nt_eq; rw [entries_eq] at h1; rw [tombs_eq] at h2; rw [W.len]; omega
  have hsm := W.small
  have hlen := W.len
  rcases W.lay.lookupLoop_spec hroom (by omega) k with ⟨i, b, e, h, hi, hs, hk⟩ | ⟨hno, j, b, hj, hfree, hreach, h⟩
  · left
    have hinit : t0 = t := by
      rcases hne0.1 with h1 | ⟨_, h1⟩
      · exact h1
      · exfalso
        have : e ∈ t0.entries := mem_ents.mpr ⟨i, b, hi, hs⟩
        rw [h1, (initTable_wf hash keyOf (by omega)).2] at this
        exact absurd this (by simp)
    subst hinit
    refine ⟨i, b, e, fun mk => ?_, hi, hs, hk, mem_ents.mpr ⟨i, b, hi, hs⟩⟩
    rw [hlen] at h
    simp only [insertE, lookupBucketFor, ht0, if_neg (by omega : ¬ t0.nb = 0), h, Res.ok_bind, hi, hs]
  · right
    rw [← entries_eq, hent] at hno
    refine ⟨hno, fun keyOf' mk hcong hmk => ?_⟩
    have hcong0 : ∀ e ∈ t0.entries, keyOf' e = keyOf e := by rw [hent]; exact hcong
    have W' := W.congr hcong0
    have hno' : ∀ e ∈ ents t0.buckets, keyOf' e ≠ some k := by
      intro e he; rw [hcong0 e he]; exact hno e (by rw [← hent]; exact he)
    have hse : slotEntry b = none := by rcases hfree with h | h <;> simp [slotEntry, h]
    obtain ⟨L', hp⟩ := W'.lay.insert hj hse hreach hno' hmk
    have hjl := lt_of_get hj
    have hset2 : (t0.buckets.set j { b with hash := hash k })[j]? = some { b with hash := hash k } := by
      rw [List.getElem?_set_self hjl]
    have hne_eq := W.ne_eq
    have hnt_eq := W.nt_eq
    rw [entries_eq] at hne_eq
    rw [tombs_eq] at hnt_eq
    have hplen := hp.length_eq
    simp only [List.length_cons] at hplen
    have ht := tmb_set (b' := ⟨hash k, .full mk⟩) hj
    rw [hlen] at h
    have fin : ∀ nt, nt = tmb (t0.buckets.set j ⟨hash k, .full mk⟩) → nt ≤ t0.nt → t0.nt ≤ nt + 1 → 
        ∃ t', mayRehash (⟨t0.init, t0.buckets.set j ⟨hash k, .full mk⟩, t0.nb, w32 (t0.ne + 1), nt⟩ : Table E) = .ok t' ∧
          WF hash keyOf' t' ∧ t'.entries.Perm (mk :: t.entries) ∧
          WF1 hash keyOf' (⟨t0.init, t0.buckets.set j ⟨hash k, .full mk⟩, t0.nb, w32 (t0.ne + 1), nt⟩ : Table E) := by
      intro nt hnt hle hge
      have W1 : WF1 hash keyOf' (⟨t0.init, t0.buckets.set j ⟨hash k, .full mk⟩, t0.nb, w32 (t0.ne + 1), nt⟩ : Table E) := by
        rw [w32_of_lt (by omega)]
        refine ⟨W.init, by simpa using hlen, L', ?_, ?_, by simp only; omega, by simp only; omega, hsm⟩
        · simp only [entries_eq]; omega
        · simp only [tombs_eq]; exact hnt
      obtain ⟨t', h1, h2, h3, h4⟩ := mayRehash_spec W1 (by simp only; rw [w32_of_lt (by omega)]; omega)
      refine ⟨t', h1, h2, h3.trans ?_, W1⟩
      rw [← hent]; exact hp
    rcases hfree with hb | hb
    · have ht2 : tmb (t0.buckets.set j ⟨hash k, .full mk⟩) = tmb t0.buckets := by
        have e1 : isTomb b = false := by simp [isTomb, hb]
        have e2 : isTomb (⟨hash k, .full mk⟩ : Bucket E) = false := rfl
        rw [e1, e2] at ht; simpa using ht
      rw [hb] at hset2 h
      obtain ⟨t', h1, h2, h3, h4⟩ := fin t0.nt (by rw [hnt_eq]; exact ht2.symm) (by omega) (by omega)
      refine ⟨j, t', t0, _, ?_, h2, h3, hne0.1, h4, h1, rfl, by simp only; rw [w32_of_lt (by omega)], ?_⟩
      · simp only [insertE, lookupBucketFor, ht0, if_neg (by omega : ¬ t0.nb = 0), h, Res.ok_bind, hset2, List.set_set, h1]
      · simp only; rw [w32_of_lt (by omega)]; omega
    · have ht2 : tmb (t0.buckets.set j ⟨hash k, .full mk⟩) + 1 = tmb t0.buckets := by
        have e1 : isTomb b = true := by simp [isTomb, hb]
        have e2 : isTomb (⟨hash k, .full mk⟩ : Bucket E) = false := rfl
        rw [e1, e2] at ht; simpa using ht
      rw [hb] at hset2 h
      have hpos : 1 ≤ t0.nt := by omega
      have hsub : sub32 t0.nt 1 = t0.nt - 1 := sub32_of_le hpos (by omega)
      obtain ⟨t', h1, h2, h3, h4⟩ := fin (sub32 t0.nt 1) (by rw [hsub]; omega) (by omega) (by omega)
      refine ⟨j, t', t0, _, ?_, h2, h3, hne0.1, h4, h1, rfl, by simp only; rw [w32_of_lt (by omega)], ?_⟩
      · simp only [insertE, lookupBucketFor, ht0, if_neg (by omega : ¬ t0.nb = 0), h, Res.ok_bind, hset2, List.set_set, h1]
      · simp only; rw [w32_of_lt (by omega)]; omega

end

end Table
end Eni
