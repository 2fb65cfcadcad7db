import Verif.Model.HashBase
import Mathlib.Data.List.Perm.Basic
import Mathlib.Data.Nat.Find
/-!
# Invariants of the bucket array: probe loops

Helper lemmas, no property statements.
-/
set_option linter.unusedSectionVars false
set_option linter.unusedVariables false

namespace Eni
namespace Table

variable {E K : Type}

/-- entries of a bucket list -/
def slotEntry (b : Bucket E) : Option E := match b.slot with | .full e => some e | _ => none
def isTomb (b : Bucket E) : Bool := match b.slot with | .tomb => true | _ => false
def isEmpty (b : Bucket E) : Bool := match b.slot with | .empty => true | _ => false

abbrev ents (bs : List (Bucket E)) : List E := bs.filterMap slotEntry
abbrev tmb (bs : List (Bucket E)) : Nat := bs.countP isTomb
abbrev emp (bs : List (Bucket E)) : Nat := bs.countP isEmpty

theorem entries_eq (t : Table E) : t.entries = ents t.buckets := rfl
theorem tombs_eq (t : Table E) : t.tombs = tmb t.buckets := rfl
theorem empties_eq (t : Table E) : t.empties = emp t.buckets := rfl

theorem slotEntry_some {b : Bucket E} {e : E} : slotEntry b = some e ↔ b.slot = .full e := by
  unfold slotEntry; cases b.slot <;> simp

theorem ents_empty (h : UInt32) (bs : List (Bucket E)) : ents (⟨h, .empty⟩ :: bs) = ents bs := rfl
theorem ents_tomb (h : UInt32) (bs : List (Bucket E)) : ents (⟨h, .tomb⟩ :: bs) = ents bs := rfl
theorem ents_full (h : UInt32) (e : E) (bs : List (Bucket E)) : ents (⟨h, .full e⟩ :: bs) = e :: ents bs := rfl
theorem tmb_empty (h : UInt32) (bs : List (Bucket E)) : tmb (⟨h, .empty⟩ :: bs) = tmb bs := by simp [tmb, List.countP_cons, isTomb]
theorem tmb_tomb (h : UInt32) (bs : List (Bucket E)) : tmb (⟨h, .tomb⟩ :: bs) = tmb bs + 1 := by simp [tmb, List.countP_cons, isTomb]
theorem tmb_full (h : UInt32) (e : E) (bs : List (Bucket E)) : tmb (⟨h, .full e⟩ :: bs) = tmb bs := by simp [tmb, List.countP_cons, isTomb]

theorem count_total (bs : List (Bucket E)) : (ents bs).length + tmb bs + emp bs = bs.length := by
  induction bs with
  | nil => rfl
  | cons b bs ih =>
    rcases b with ⟨h, s⟩
    simp only [ents, tmb, emp, List.filterMap_cons, List.countP_cons, List.length_cons] at ih ⊢
    cases s <;> simp [slotEntry, isTomb, isEmpty] <;> omega

theorem split_at {bs : List (Bucket E)} {i : Nat} {b : Bucket E} (h : bs[i]? = some b) :
    bs = bs.take i ++ b :: bs.drop (i+1) := by
  have hi : i < bs.length := by
    rcases Nat.lt_or_ge i bs.length with h1 | h1
    · exact h1
    · simp [List.getElem?_eq_none h1] at h
  have : bs[i] = b := by
    rw [List.getElem?_eq_getElem hi] at h; exact Option.some.inj h
  rw [← this, List.getElem_cons_drop, List.take_append_drop]

theorem set_at {bs : List (Bucket E)} {i : Nat} {b b' : Bucket E} (h : bs[i]? = some b) :
    bs.set i b' = bs.take i ++ b' :: bs.drop (i+1) := by
  have hi : i < bs.length := by
    rcases Nat.lt_or_ge i bs.length with h1 | h1
    · exact h1
    · simp [List.getElem?_eq_none h1] at h
  rw [List.set_eq_take_append_cons_drop, if_pos hi]

theorem lt_of_get {bs : List (Bucket E)} {i : Nat} {b : Bucket E} (h : bs[i]? = some b) : i < bs.length := by
  rcases Nat.lt_or_ge i bs.length with h1 | h1
  · exact h1
  · simp [List.getElem?_eq_none h1] at h

/-- all counting facts about overwriting one bucket -/
theorem ents_set {bs : List (Bucket E)} {i : Nat} {b b' : Bucket E} (h : bs[i]? = some b) :
    ((slotEntry b).toList ++ ents (bs.set i b')).Perm ((slotEntry b').toList ++ ents bs) := by
  rw [set_at h]
  conv => rhs; rw [split_at h]
  simp only [ents, List.filterMap_append, List.filterMap_cons]
  cases h1 : slotEntry b <;> cases h2 : slotEntry b' <;> simp
  · exact List.perm_middle.symm
  · rename_i x y
    refine (List.Perm.cons _ List.perm_middle).trans ?_
    refine (List.Perm.swap _ _ _).trans ?_
    exact List.Perm.cons _ List.perm_middle.symm

theorem tmb_set {bs : List (Bucket E)} {i : Nat} {b b' : Bucket E} (h : bs[i]? = some b) :
    tmb (bs.set i b') + (if isTomb b then 1 else 0) = tmb bs + (if isTomb b' then 1 else 0) := by
  rw [set_at h]
  conv => rhs; rw [split_at h]
  simp only [tmb, List.countP_append, List.countP_cons]
  omega

theorem exists_empty {bs : List (Bucket E)} (h : (ents bs).length + tmb bs < bs.length) :
    ∃ (i : Nat) (b : Bucket E), bs[i]? = some b ∧ b.slot = .empty := by
  have := count_total bs
  have : 0 < emp bs := by omega
  rw [emp, List.countP_pos_iff] at this
  obtain ⟨b, hb, he⟩ := this
  obtain ⟨i, hi⟩ := List.mem_iff_getElem?.mp hb
  refine ⟨i, b, hi, ?_⟩
  unfold isEmpty at he
  cases hs : b.slot <;> simp_all

theorem mem_ents {bs : List (Bucket E)} {e : E} :
    e ∈ ents bs ↔ ∃ (i : Nat) (b : Bucket E), bs[i]? = some b ∧ b.slot = .full e := by
  simp only [ents, List.mem_filterMap, slotEntry_some]
  constructor
  · rintro ⟨b, hb, hs⟩
    obtain ⟨i, hi⟩ := List.mem_iff_getElem?.mp hb
    exact ⟨i, b, hi, hs⟩
  · rintro ⟨i, b, hi, hs⟩
    exact ⟨b, List.mem_of_getElem? hi, hs⟩

theorem nextIdx_eq {n i : Nat} (h : i < n) : nextIdx n i = (i + 1) % n := by
  unfold nextIdx
  split
  · rename_i h1; rw [h1, Nat.mod_self]
  · rw [Nat.mod_eq_of_lt (by omega)]

theorem nextIdx_add {n s d : Nat} (h : 0 < n) : nextIdx n ((s + d) % n) = (s + (d + 1)) % n := by
  rw [nextIdx_eq (Nat.mod_lt _ h), Nat.mod_add_mod, Nat.add_assoc]

/-- Bucket `i` is reached from `s` by going forward cyclically over non-empty buckets. -/
def Reach (bs : List (Bucket E)) (s i : Nat) : Prop :=
  ∃ d, d < bs.length ∧ i = (s + d) % bs.length ∧
    ∀ d' < d, ∃ b, bs[(s + d') % bs.length]? = some b ∧ b.slot ≠ .empty

/-- The layout invariant of a bucket array. -/
structure Layout (hash : K → UInt32) (keyOf : E → Option K) (bs : List (Bucket E)) : Prop where
  hashOk : ∀ b ∈ bs, ∀ e, b.slot = .full e → ∃ k, keyOf e = some k ∧ b.hash = hash k
  reach : ∀ (i : Nat) b e, bs[i]? = some b → b.slot = .full e → Reach bs (b.hash.toNat % bs.length) i
  nodup : ((ents bs).map keyOf).Nodup

theorem get_of_lt {bs : List (Bucket E)} {i : Nat} (h : i < bs.length) : ∃ b, bs[i]? = some b :=
  ⟨_, List.getElem?_eq_getElem h⟩

/-- two buckets with the same key are the same bucket -/
theorem Layout.index_inj {hash : K → UInt32} {keyOf : E → Option K} {bs : List (Bucket E)}
    (L : Layout hash keyOf bs) {i j : Nat} {b b' : Bucket E} {e e' : E}
    (hi : bs[i]? = some b) (hs : b.slot = .full e) (hj : bs[j]? = some b') (hs' : b'.slot = .full e')
    (hk : keyOf e = keyOf e') : i = j := by
  have H := L.nodup
  rw [List.Nodup, List.pairwise_map, ents, List.pairwise_filterMap] at H
  rw [List.pairwise_iff_getElem] at H
  have hil := lt_of_get hi
  have hjl := lt_of_get hj
  rw [List.getElem?_eq_getElem hil] at hi
  rw [List.getElem?_eq_getElem hjl] at hj
  have hi' := Option.some.inj hi
  have hj' := Option.some.inj hj
  rcases Nat.lt_trichotomy i j with h | h | h
  · exact absurd hk (H i j hil hjl h e (slotEntry_some.mpr (hi' ▸ hs)) e' (slotEntry_some.mpr (hj' ▸ hs')))
  · exact h
  · exact absurd hk.symm (H j i hjl hil h e' (slotEntry_some.mpr (hj' ▸ hs')) e (slotEntry_some.mpr (hi' ▸ hs)))

variable [DecidableEq K]

/-- the probe for key `k` with hash `h` stops at bucket `b` -/
def Stop (keyOf : E → Option K) (h : UInt32) (k : K) (b : Bucket E) : Prop :=
  b.slot = .empty ∨ ∃ e, b.slot = .full e ∧ b.hash = h ∧ keyOf e = some k

theorem findLoop_skip {keyOf : E → Option K} {bs : List (Bucket E)} {h : UInt32} {k : K}
    (live : ∀ e ∈ ents bs, ∃ k, keyOf e = some k) (pos : 0 < bs.length) (s d fuel : Nat)
    (hns : ∀ d' < d, ∀ b, bs[(s + d') % bs.length]? = some b → ¬ Stop keyOf h k b) :
    findLoop keyOf bs bs.length h k (fuel + d) (s % bs.length) =
      findLoop keyOf bs bs.length h k fuel ((s + d) % bs.length) := by
  induction d generalizing fuel with
  | zero => rfl
  | succ d ih =>
    rw [show fuel + (d + 1) = (fuel + 1) + d by omega, ih _ (fun d' hd' => hns d' (by omega))]
    obtain ⟨b, hb⟩ := get_of_lt (Nat.mod_lt (s + d) pos)
    have hs := hns d (by omega) b hb
    rw [← nextIdx_add pos]
    conv => lhs; unfold findLoop
    simp only [hb]
    cases hsl : b.slot with
    | empty => exact absurd (Or.inl hsl) hs
    | tomb => rfl
    | full e =>
      simp only
      split
      · rename_i hh
        obtain ⟨k', hk'⟩ := live e (mem_ents.mpr ⟨_, _, hb, hsl⟩)
        simp only [hk']
        split
        · rename_i hkk
          exact absurd (Or.inr ⟨e, hsl, hh, hkk ▸ hk'⟩) hs
        · rfl
      · rfl

/-- From some distance on the first stopping bucket is found within one turn. -/
theorem first_stop {P : Nat → Prop} (h : ∃ d, P d) : ∃ d, P d ∧ ∀ d' < d, ¬ P d' := by
  classical
  exact ⟨Nat.find h, Nat.find_spec h, fun d' hd' => Nat.find_min h hd'⟩

/-- some stopping bucket is at most `length - 1` away from `s` -/
theorem dist_exists {n s i : Nat} (hi : i < n) : ∃ d, d < n ∧ (s + d) % n = i := by
  have hn : 0 < n := by omega
  have hs := Nat.mod_lt s hn
  rcases Nat.lt_or_ge i (s % n) with h | h
  · refine ⟨i + n - s % n, by omega, ?_⟩
    rw [Nat.add_mod, Nat.mod_eq_of_lt (by omega : i + n - s % n < n)]
    rw [show s % n + (i + n - s % n) = i + n by omega, Nat.add_mod_right, Nat.mod_eq_of_lt hi]
  · refine ⟨i - s % n, by omega, ?_⟩
    rw [Nat.add_mod, Nat.mod_eq_of_lt (by omega : i - s % n < n)]
    rw [show s % n + (i - s % n) = i by omega, Nat.mod_eq_of_lt hi]

theorem stop_exists {keyOf : E → Option K} {bs : List (Bucket E)} {h : UInt32} {k : K}
    (room : (ents bs).length + tmb bs < bs.length) (s : Nat) :
    ∃ (d : Nat) (b : Bucket E), d < bs.length ∧ bs[(s + d) % bs.length]? = some b ∧ Stop keyOf h k b ∧
      ∀ d' < d, ∀ b, bs[(s + d') % bs.length]? = some b → ¬ Stop keyOf h k b := by
  obtain ⟨i, b, hb, he⟩ := exists_empty room
  obtain ⟨d0, hd0, hd0i⟩ := dist_exists (s := s) (lt_of_get hb)
  obtain ⟨d, ⟨b', hb', hs'⟩, hmin⟩ := first_stop (P := fun d => ∃ b, bs[(s + d) % bs.length]? = some b ∧ Stop keyOf h k b)
    ⟨d0, b, by rw [hd0i]; exact hb, Or.inl he⟩
  refine ⟨d, b', ?_, hb', hs', fun d' hd' b hb hst => hmin d' hd' ⟨b, hb, hst⟩⟩
  rcases Nat.lt_or_ge d0 d with h | h
  · exact absurd ⟨b, by rw [hd0i]; exact hb, Or.inl he⟩ (hmin d0 h)
  · omega

/-- With a reachable bucket for key `k`, the first stop is that bucket; otherwise it is an empty one. -/
theorem Layout.stop_iff {hash : K → UInt32} {keyOf : E → Option K} {bs : List (Bucket E)}
    (L : Layout hash keyOf bs) {k : K} {d : Nat} {b : Bucket E}
    (hb : bs[((hash k).toNat + d) % bs.length]? = some b) (hst : Stop keyOf (hash k) k b) (hd : d < bs.length)
    (hmin : ∀ d' < d, ∀ b, bs[((hash k).toNat + d') % bs.length]? = some b → ¬ Stop keyOf (hash k) k b) :
    (b.slot = .empty ∧ ∀ e ∈ ents bs, keyOf e ≠ some k) ∨ (∃ e, b.slot = .full e ∧ keyOf e = some k) := by
  rcases hst with he | ⟨e, hs, _, hk⟩
  · left
    refine ⟨he, fun e hme hk => ?_⟩
    obtain ⟨i, b', hi, hs'⟩ := mem_ents.mp hme
    obtain ⟨k', hk', hh⟩ := L.hashOk b' (List.mem_of_getElem? hi) e hs'
    have hkk : k' = k := by rw [hk] at hk'; exact (Option.some.inj hk').symm
    subst hkk
    obtain ⟨d2, hd2, hi2, hre⟩ := L.reach i b' e hi hs'
    rw [hh] at hi2 hre
    simp only [Nat.mod_add_mod] at hi2 hre
    rcases Nat.lt_trichotomy d d2 with h | h | h
    · obtain ⟨b2, hb2, hne⟩ := hre d h
      rw [hb] at hb2
      exact hne (Option.some.inj hb2 ▸ he)
    · subst h
      rw [← hi2, hi] at hb
      have := Option.some.inj hb
      subst this
      rw [he] at hs'
      exact absurd hs' (by simp)
    · exact hmin d2 h b' (hi2 ▸ hi) (Or.inr ⟨e, hs', hh, hk⟩)
  · exact Or.inr ⟨e, hs, hk⟩

theorem Layout.live {hash : K → UInt32} {keyOf : E → Option K} {bs : List (Bucket E)}
    (L : Layout hash keyOf bs) : ∀ e ∈ ents bs, ∃ k, keyOf e = some k := by
  intro e he
  obtain ⟨i, b, hi, hs⟩ := mem_ents.mp he
  obtain ⟨k, hk, _⟩ := L.hashOk b (List.mem_of_getElem? hi) e hs
  exact ⟨k, hk⟩

/-- `findKey`'s loop: returns the bucket of the key, or nothing. -/
theorem Layout.findLoop_spec {hash : K → UInt32} {keyOf : E → Option K} {bs : List (Bucket E)}
    (L : Layout hash keyOf bs) (room : (ents bs).length + tmb bs < bs.length) (k : K) :
    (findLoop keyOf bs bs.length (hash k) k (bs.length + 1) ((hash k).toNat % bs.length) = .ok none
      ∧ ∀ e ∈ ents bs, keyOf e ≠ some k) ∨
    (∃ (i : Nat) (b : Bucket E) (e : E), findLoop keyOf bs bs.length (hash k) k (bs.length + 1) ((hash k).toNat % bs.length) = .ok (some i)
      ∧ bs[i]? = some b ∧ b.slot = .full e ∧ keyOf e = some k) := by
  obtain ⟨d, b, hd, hb, hst, hmin⟩ := stop_exists (keyOf := keyOf) (h := hash k) (k := k) room (hash k).toNat
  have pos : 0 < bs.length := by omega
  have hskip := findLoop_skip (keyOf := keyOf) (h := hash k) (k := k) L.live pos (hash k).toNat d (bs.length - d + 1) hmin
  rw [show bs.length - d + 1 + d = bs.length + 1 by omega] at hskip
  rw [hskip]
  rcases L.stop_iff hb hst hd hmin with ⟨he, hno⟩ | ⟨e, hs, hk⟩
  · left
    refine ⟨?_, hno⟩
    unfold findLoop
    simp [hb, he]
  · right
    refine ⟨_, b, e, ?_, hb, hs, hk⟩
    obtain ⟨k', hk', hh⟩ := L.hashOk b (List.mem_of_getElem? hb) e hs
    have hkk : k' = k := by rw [hk] at hk'; exact (Option.some.inj hk').symm
    subst hkk
    unfold findLoop
    simp [hb, hs, hh, hk]

/-- tombstone memory of `lookupLoop` after `d` steps -/
theorem lookupLoop_skip {keyOf : E → Option K} {bs : List (Bucket E)} {h : UInt32} {k : K}
    (live : ∀ e ∈ ents bs, ∃ k, keyOf e = some k) (pos : 0 < bs.length) (s d fuel : Nat)
    (hns : ∀ d' < d, ∀ b, bs[(s + d') % bs.length]? = some b → ¬ Stop keyOf h k b) :
    ∃ ft, lookupLoop keyOf bs bs.length h k (fuel + d) (s % bs.length) none =
      lookupLoop keyOf bs bs.length h k fuel ((s + d) % bs.length) ft ∧
      (ft = none ∨ ∃ d1 < d, ∃ b, ft = some ((s + d1) % bs.length) ∧
        bs[(s + d1) % bs.length]? = some b ∧ b.slot = .tomb) := by
  induction d generalizing fuel with
  | zero => exact ⟨none, rfl, Or.inl rfl⟩
  | succ d ih =>
    obtain ⟨ft, heq, hft⟩ := ih (fuel + 1) (fun d' hd' => hns d' (by omega))
    rw [show fuel + (d + 1) = (fuel + 1) + d by omega, heq]
    obtain ⟨b, hb⟩ := get_of_lt (Nat.mod_lt (s + d) pos)
    have hs := hns d (by omega) b hb
    rw [← nextIdx_add pos]
    conv => enter [1, ft, 1, 1]; unfold lookupLoop
    simp only [hb]
    have hft' : ft = none ∨ ∃ d1 < d + 1, ∃ b, ft = some ((s + d1) % bs.length) ∧
        bs[(s + d1) % bs.length]? = some b ∧ b.slot = .tomb := by
      rcases hft with h | ⟨d1, h1, r⟩
      · exact Or.inl h
      · exact Or.inr ⟨d1, by omega, r⟩
    cases hsl : b.slot with
    | empty => exact absurd (Or.inl hsl) hs
    | tomb =>
      simp only
      rcases hft with h | ⟨d1, h1, b1, rfl, r⟩
      · subst h
        exact ⟨_, rfl, Or.inr ⟨d, by omega, b, rfl, hb, hsl⟩⟩
      · exact ⟨_, rfl, Or.inr ⟨d1, by omega, b1, rfl, r⟩⟩
    | full e =>
      simp only
      split
      · rename_i hh
        obtain ⟨k', hk'⟩ := live e (mem_ents.mpr ⟨_, _, hb, hsl⟩)
        simp only [hk']
        split
        · rename_i hkk
          exact absurd (Or.inr ⟨e, hsl, hh, hkk ▸ hk'⟩) hs
        · exact ⟨ft, rfl, hft'⟩
      · exact ⟨ft, rfl, hft'⟩

/-- `lookupBucketFor`'s loop: the bucket of the key, or a free bucket reachable from its home position. -/
theorem Layout.lookupLoop_spec {hash : K → UInt32} {keyOf : E → Option K} {bs : List (Bucket E)}
    (L : Layout hash keyOf bs) (room : (ents bs).length + tmb bs < bs.length) (small : bs.length ≤ 2147483648) (k : K) :
    (∃ (i : Nat) (b : Bucket E) (e : E), lookupLoop keyOf bs bs.length (hash k) k (bs.length + 1) ((hash k).toNat % bs.length) none = .ok (bs, i)
      ∧ bs[i]? = some b ∧ b.slot = .full e ∧ keyOf e = some k) ∨
    ((∀ e ∈ ents bs, keyOf e ≠ some k) ∧
      ∃ (j : Nat) (b : Bucket E), bs[j]? = some b ∧ (b.slot = .empty ∨ b.slot = .tomb) ∧ Reach bs ((hash k).toNat % bs.length) j ∧
        lookupLoop keyOf bs bs.length (hash k) k (bs.length + 1) ((hash k).toNat % bs.length) none =
          .ok (bs.set j { b with hash := hash k }, j)) := by
  obtain ⟨d, b, hd, hb, hst, hmin⟩ := stop_exists (keyOf := keyOf) (h := hash k) (k := k) room (hash k).toNat
  have pos : 0 < bs.length := by omega
  obtain ⟨ft, hskip, hft⟩ := lookupLoop_skip (keyOf := keyOf) (h := hash k) (k := k) L.live pos (hash k).toNat d (bs.length - d + 1) hmin
  rw [show bs.length - d + 1 + d = bs.length + 1 by omega] at hskip
  rw [hskip]
  have nonempty : ∀ d' < d, ∃ b, bs[((hash k).toNat % bs.length + d') % bs.length]? = some b ∧ b.slot ≠ .empty := by
    intro d' hd'
    obtain ⟨b', hb'⟩ := get_of_lt (Nat.mod_lt ((hash k).toNat + d') pos)
    refine ⟨b', by rw [Nat.mod_add_mod]; exact hb', fun he => hmin d' hd' b' hb' (Or.inl he)⟩
  rcases L.stop_iff hb hst hd hmin with ⟨he, hno⟩ | ⟨e, hs, hk⟩
  · right
    refine ⟨hno, ?_⟩
    rcases hft with rfl | ⟨d1, hd1, b1, rfl, hb1, hs1⟩
    · refine ⟨_, b, hb, Or.inl he, ⟨d, hd, by rw [Nat.mod_add_mod], nonempty⟩, ?_⟩
      unfold lookupLoop
      simp [hb, he]
    · refine ⟨_, b1, hb1, Or.inr hs1, ⟨d1, by omega, by rw [Nat.mod_add_mod], fun d' hd' => nonempty d' (by omega)⟩, ?_⟩
      have hlt := lt_of_get hb1
      have : ((hash k).toNat + d1) % bs.length < 2147483648 := by omega
      unfold lookupLoop
      simp only [hb, he, if_pos this, hb1]
  · left
    refine ⟨_, b, e, ?_, hb, hs, hk⟩
    obtain ⟨k', hk', hh⟩ := L.hashOk b (List.mem_of_getElem? hb) e hs
    have hkk : k' = k := by rw [hk] at hk'; exact (Option.some.inj hk').symm
    subst hkk
    unfold lookupLoop
    simp [hb, hs, hh, hk]

omit [DecidableEq K] in
/-- filling buckets keeps reachability -/
theorem Reach.mono {bs bs' : List (Bucket E)} {s i : Nat} (hl : bs'.length = bs.length)
    (h : ∀ (j : Nat) b, bs[j]? = some b → b.slot ≠ .empty → ∃ b', bs'[j]? = some b' ∧ b'.slot ≠ .empty)
    (r : Reach bs s i) : Reach bs' s i := by
  obtain ⟨d, hd, hi, hr⟩ := r
  refine ⟨d, by omega, by rw [hl]; exact hi, fun d' hd' => ?_⟩
  obtain ⟨b, hb, hne⟩ := hr d' hd'
  rw [hl]
  exact h _ b hb hne

omit [DecidableEq K] in
theorem occ_set {bs : List (Bucket E)} {i : Nat} {b' : Bucket E} (hne : b'.slot ≠ .empty) :
    ∀ (j : Nat) b, bs[j]? = some b → b.slot ≠ .empty → ∃ b2, (bs.set i b')[j]? = some b2 ∧ b2.slot ≠ .empty := by
  intro j b hj hb
  rcases Nat.decEq i j with h | h
  · exact ⟨b, by rw [List.getElem?_set_ne h]; exact hj, hb⟩
  · subst h
    exact ⟨b', by rw [List.getElem?_set_self (lt_of_get hj)], hne⟩

omit [DecidableEq K] in
/-- storing a new entry in a free reachable bucket keeps the layout -/
theorem Layout.insert {hash : K → UInt32} {keyOf : E → Option K} {bs : List (Bucket E)}
    (L : Layout hash keyOf bs) {j : Nat} {b : Bucket E} {k : K} {mk : E}
    (hj : bs[j]? = some b) (hfree : slotEntry b = none) (hr : Reach bs ((hash k).toNat % bs.length) j)
    (hno : ∀ e ∈ ents bs, keyOf e ≠ some k) (hmk : keyOf mk = some k) :
    Layout hash keyOf (bs.set j ⟨hash k, .full mk⟩) ∧
      (ents (bs.set j ⟨hash k, .full mk⟩)).Perm (mk :: ents bs) := by
  have hp : (ents (bs.set j ⟨hash k, .full mk⟩)).Perm (mk :: ents bs) := by
    have := ents_set (b' := ⟨hash k, .full mk⟩) hj
    rw [hfree] at this
    simpa [slotEntry] using this
  refine ⟨⟨?_, ?_, ?_⟩, hp⟩
  · intro b' hb' e he
    rcases List.mem_or_eq_of_mem_set hb' with h | h
    · exact L.hashOk b' h e he
    · subst h
      simp at he
      exact ⟨k, he ▸ hmk, rfl⟩
  · intro i b' e hi hs
    rw [List.length_set]
    refine Reach.mono (bs := bs) (by simp) (occ_set (by simp)) ?_
    rcases Nat.decEq j i with h | h
    · rw [List.getElem?_set_ne h] at hi
      exact L.reach i b' e hi hs
    · subst h
      rw [List.getElem?_set_self (lt_of_get hj)] at hi
      have := Option.some.inj hi
      subst this
      exact hr
  · refine (hp.map keyOf).nodup_iff.mpr ?_
    simp only [List.map_cons, List.nodup_cons]
    refine ⟨?_, L.nodup⟩
    rw [hmk]
    intro hm
    obtain ⟨e, he, hke⟩ := List.mem_map.mp hm
    exact hno e he hke

omit [DecidableEq K] in
/-- turning a full bucket into a tombstone keeps the layout -/
theorem Layout.erase {hash : K → UInt32} {keyOf : E → Option K} {bs : List (Bucket E)}
    (L : Layout hash keyOf bs) {j : Nat} {b : Bucket E} {e : E}
    (hj : bs[j]? = some b) (hs : b.slot = .full e) :
    Layout hash keyOf (bs.set j { b with slot := .tomb }) ∧
      (e :: ents (bs.set j { b with slot := .tomb })).Perm (ents bs) := by
  have hp : (e :: ents (bs.set j { b with slot := .tomb })).Perm (ents bs) := by
    have := ents_set (b' := { b with slot := .tomb }) hj
    have h2 : slotEntry b = some e := slotEntry_some.mpr hs
    rw [h2] at this
    simpa [slotEntry] using this
  refine ⟨⟨?_, ?_, ?_⟩, hp⟩
  · intro b' hb' e he
    rcases List.mem_or_eq_of_mem_set hb' with h | h
    · exact L.hashOk b' h e he
    · subst h; simp at he
  · intro i b' e hi hs'
    rw [List.length_set]
    refine Reach.mono (bs := bs) (by simp) (occ_set (by simp)) ?_
    rcases Nat.decEq j i with h | h
    · rw [List.getElem?_set_ne h] at hi
      exact L.reach i b' e hi hs'
    · subst h
      rw [List.getElem?_set_self (lt_of_get hj)] at hi
      have := Option.some.inj hi
      subst this
      simp at hs'
  · have := (hp.map keyOf).nodup_iff.mpr L.nodup
    simp only [List.map_cons, List.nodup_cons] at this
    exact this.2

omit [DecidableEq K] in
/-- The layout depends on the key function only through the entries present. -/
theorem Layout.congr {hash : K → UInt32} {keyOf keyOf' : E → Option K} {bs : List (Bucket E)}
    (L : Layout hash keyOf bs) (h : ∀ e ∈ ents bs, keyOf' e = keyOf e) : Layout hash keyOf' bs := by
  refine ⟨?_, L.reach, ?_⟩
  · intro b hb e hs
    obtain ⟨i, hi⟩ := List.mem_iff_getElem?.mp hb
    rw [h e (mem_ents.mpr ⟨i, b, hi, hs⟩)]
    exact L.hashOk b hb e hs
  · rw [List.map_congr_left h]
    exact L.nodup

/-! ### Adequacy of the fuel -/

/-- A bucket either stops the probe whatever the fuel, or passes it on. -/
theorem findLoop_step {keyOf : E → Option K} {bs : List (Bucket E)} {n : Nat} {h : UInt32} {k : K} (i : Nat) :
    (∃ r, r ≠ Res.diverge ∧ ∀ f, findLoop keyOf bs n h k (f + 1) i = r) ∨
    (∀ f, findLoop keyOf bs n h k (f + 1) i = findLoop keyOf bs n h k f (nextIdx n i)) := by
  cases hb : bs[i]? with
  | none => exact Or.inl ⟨.ub .outOfBounds, by simp, fun f => by simp [findLoop, hb]⟩
  | some b =>
    cases hs : b.slot with
    | empty => exact Or.inl ⟨.ok none, by simp, fun f => by simp [findLoop, hb, hs]⟩
    | tomb => exact Or.inr fun f => by simp [findLoop, hb, hs]
    | full e =>
      by_cases hh : b.hash = h
      · cases hk : keyOf e with
        | none => exact Or.inl ⟨.ub .useAfterFree, by simp, fun f => by simp [findLoop, hb, hs, hh, hk]⟩
        | some k' =>
          by_cases hkk : k' = k
          · exact Or.inl ⟨.ok (some i), by simp, fun f => by simp [findLoop, hb, hs, hh, hk, hkk]⟩
          · exact Or.inr fun f => by simp [findLoop, hb, hs, hh, hk, hkk]
      · exact Or.inr fun f => by simp [findLoop, hb, hs, hh]

/-- If one whole turn plus one does not stop, no amount of iterations does. -/
theorem findLoop_diverge_all {keyOf : E → Option K} {bs : List (Bucket E)} {h : UInt32} {k : K} {s : Nat}
    (pos : 0 < bs.length)
    (hd : findLoop keyOf bs bs.length h k (bs.length + 1) (s % bs.length) = .diverge) (fuel : Nat) :
    findLoop keyOf bs bs.length h k fuel (s % bs.length) = .diverge := by
  have run : ∀ d ≤ bs.length, findLoop keyOf bs bs.length h k (bs.length + 1 - d) ((s + d) % bs.length) = .diverge := by
    intro d
    induction d with
    | zero => intro _; exact hd
    | succ d ih =>
      intro hdl
      have h1 := ih (by omega)
      rw [show bs.length + 1 - d = (bs.length + 1 - (d + 1)) + 1 by omega] at h1
      rcases findLoop_step (keyOf := keyOf) (bs := bs) (n := bs.length) (h := h) (k := k) ((s + d) % bs.length) with ⟨r, hr, hf⟩ | hf
      · rw [hf] at h1; exact absurd h1 hr
      · rw [hf, nextIdx_add pos] at h1; exact h1
  have adv : ∀ i < bs.length, ∀ f, findLoop keyOf bs bs.length h k (f + 1) i = findLoop keyOf bs bs.length h k f (nextIdx bs.length i) := by
    intro i hi
    obtain ⟨d, hdl, hdi⟩ := dist_exists (s := s) hi
    have h1 := run d (by omega)
    rw [hdi, show bs.length + 1 - d = (bs.length - d) + 1 by omega] at h1
    rcases findLoop_step (keyOf := keyOf) (bs := bs) (n := bs.length) (h := h) (k := k) i with ⟨r, hr, hf⟩ | hf
    · rw [hf] at h1; exact absurd h1 hr
    · exact hf
  have : ∀ f i, i < bs.length → findLoop keyOf bs bs.length h k f i = .diverge := by
    intro f
    induction f with
    | zero => intros; rfl
    | succ f ih =>
      intro i hi
      rw [adv i hi, ih _ (by rw [nextIdx_eq hi]; exact Nat.mod_lt _ pos)]
  exact this fuel _ (Nat.mod_lt _ pos)

end Table
end Eni
