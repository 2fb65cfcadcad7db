import Verif.Proofs.HashIter
/-!
# `count`, explicit `rehash(n)`, and adequacy of the iteration bounds

Helper lemmas, no property statements.
-/
set_option linter.unusedSectionVars false
set_option linter.unusedVariables false

namespace Eni
open Spec
namespace HashTable
open Table
variable {E K V : Type} [DecidableEq K]

theorem add_mod_ne {n s d : Nat} (h0 : 0 < d) (hd : d < n) : (s + d) % n ≠ s % n := by
  intro h
  have hn : 0 < n := by omega
  rw [Nat.add_mod, Nat.mod_eq_of_lt hd] at h
  have hs := Nat.mod_lt s hn
  generalize s % n = a at h hs
  rcases Nat.lt_or_ge (a + d) n with h1 | h1
  · rw [Nat.mod_eq_of_lt h1] at h; omega
  · rw [Nat.mod_eq_sub_mod h1, Nat.mod_eq_of_lt (by omega)] at h; omega

/-- buckets at which the search of `begin(key)` ends -/
def CStop (keyOf : E → Option K) (h : UInt32) (k : K) (b : Bucket E) : Prop :=
  (b.slot = .empty ∧ h = b.hash) ∨ ∃ e, b.slot = .full e ∧ h = b.hash ∧ keyOf e = some k

theorem chainBegin_one {keyOf : E → Option K} {t : Table E} {h : UInt32} {k : K} {start fuel i : Nat} {b : Bucket E}
    (live : ∀ e ∈ ents t.buckets, ∃ k, keyOf e = some k) (hb : t.buckets[i]? = some b) (hns : ¬ CStop keyOf h k b) :
    chainBeginLoop keyOf t h k start (fuel + 1) i =
      if start = nextIdx t.nb i then .ok none else chainBeginLoop keyOf t h k start fuel (nextIdx t.nb i) := by
  rcases b with ⟨bh, s⟩
  conv => lhs; unfold chainBeginLoop
  simp only [hb]
  cases s with
  | empty =>
    simp only
    rw [if_neg]
    intro he
    exact hns (Or.inl ⟨rfl, he⟩)
  | tomb => rfl
  | full e =>
    simp only
    by_cases he : h = bh
    · rw [if_pos he]
      obtain ⟨k', hk'⟩ := live e (mem_ents.mpr ⟨i, _, hb, rfl⟩)
      rw [hk']
      simp only
      rw [if_neg]
      rintro rfl
      exact hns (Or.inr ⟨e, rfl, he, hk'⟩)
    · rw [if_neg he]

theorem chainBegin_skip {keyOf : E → Option K} {t : Table E} {h : UInt32} {k : K}
    (live : ∀ e ∈ ents t.buckets, ∃ k, keyOf e = some k) (hl : t.buckets.length = t.nb) (s d fuel : Nat) (hd : d < t.nb)
    (hns : ∀ d' < d, ∀ b, t.buckets[(s + d') % t.nb]? = some b → ¬ CStop keyOf h k b) :
    chainBeginLoop keyOf t h k (s % t.nb) (fuel + d) (s % t.nb) =
      chainBeginLoop keyOf t h k (s % t.nb) fuel ((s + d) % t.nb) := by
  induction d generalizing fuel with
  | zero => rfl
  | succ d ih =>
    rw [show fuel + (d + 1) = (fuel + 1) + d by omega, ih (fuel + 1) (by omega) (fun d' hd' => hns d' (by omega))]
    obtain ⟨b, hb⟩ := get_of_lt (bs := t.buckets) (i := (s + d) % t.nb) (by rw [hl]; exact Nat.mod_lt _ (by omega))
    rw [chainBegin_one live hb (hns d (by omega) b hb), nextIdx_add (by omega)]
    rw [if_neg]
    intro h1
    exact add_mod_ne (by omega) hd h1.symm

theorem chainBegin_none {keyOf : E → Option K} {t : Table E} {h : UInt32} {k : K}
    (live : ∀ e ∈ ents t.buckets, ∃ k, keyOf e = some k) (hl : t.buckets.length = t.nb) (s : Nat) (hpos : 0 < t.nb)
    (hns : ∀ b ∈ t.buckets, ¬ CStop keyOf h k b) :
    chainBeginLoop keyOf t h k (s % t.nb) (t.nb + 1) (s % t.nb) = .ok none := by
  rw [show t.nb + 1 = 2 + (t.nb - 1) by omega,
    chainBegin_skip live hl s (t.nb - 1) 2 (by omega) (fun d' _ b hb => hns b (List.mem_of_getElem? hb))]
  obtain ⟨b, hb⟩ := get_of_lt (bs := t.buckets) (i := (s + (t.nb - 1)) % t.nb) (by rw [hl]; exact Nat.mod_lt _ (by omega))
  rw [chainBegin_one live hb (hns b (List.mem_of_getElem? hb)), nextIdx_add hpos]
  rw [if_pos]
  rw [show s + (t.nb - 1 + 1) = s + t.nb by omega, Nat.add_mod_right]

/-- full bucket with the given hash field -/
def hmatch (h : UInt32) (b : Bucket E) : Bool := match b.slot with | .full _ => decide (h = b.hash) | _ => false

theorem rot_get {t : Table E} (hl : t.buckets.length = t.nb) {i0 d : Nat} (hd : d < t.nb) :
    (t.buckets.rotate i0)[d]? = t.buckets[(i0 + d) % t.nb]? := by
  rw [List.getElem?_rotate (by omega), hl, Nat.add_comm]

theorem chainAdvance_spec {t : Table E} (hl : t.buckets.length = t.nb) {h : UInt32} {i0 : Nat} (hi0 : i0 < t.nb) (idx : Nat) :
    ∀ (fuel d : Nat), d < t.nb → t.nb - d ≤ fuel →
      (chainAdvanceLoop t ⟨idx, h, i0⟩ fuel ((i0 + d) % t.nb) = .ok none ∧
        ((t.buckets.rotate i0).drop (d + 1)).countP (hmatch h) = 0) ∨
      (∃ d', d < d' ∧ d' < t.nb ∧
        chainAdvanceLoop t ⟨idx, h, i0⟩ fuel ((i0 + d) % t.nb) = .ok (some ⟨(i0 + d') % t.nb, h, i0⟩) ∧
        ((t.buckets.rotate i0).drop (d + 1)).countP (hmatch h) =
          1 + ((t.buckets.rotate i0).drop (d' + 1)).countP (hmatch h)) := by
  intro fuel
  induction fuel with
  | zero => intro d hd hf; omega
  | succ fuel ih =>
    intro d hd hf
    have hlr : (t.buckets.rotate i0).length = t.nb := by rw [List.length_rotate, hl]
    by_cases hd1 : d + 1 = t.nb
    · left
      constructor
      · unfold chainAdvanceLoop
        simp only
        rw [nextIdx_add (by omega), hd1, if_pos]
        rw [Nat.add_mod_right, Nat.mod_eq_of_lt hi0]
      · rw [List.drop_eq_nil_of_le (by omega)]; rfl
    · have hne : (i0 + (d + 1)) % t.nb ≠ i0 := by
        have := add_mod_ne (n := t.nb) (s := i0) (d := d + 1) (by omega) (by omega)
        rwa [Nat.mod_eq_of_lt hi0] at this
      obtain ⟨b, hb⟩ := get_of_lt (bs := t.buckets) (i := (i0 + (d + 1)) % t.nb) (by rw [hl]; exact Nat.mod_lt _ (by omega))
      have hb2 := hb
      rw [← rot_get hl (by omega)] at hb2
      have hdrop : (t.buckets.rotate i0).drop (d + 1) = b :: (t.buckets.rotate i0).drop (d + 1 + 1) := by
        rw [List.drop_eq_getElem_cons (by omega)]
        congr 1
        rw [List.getElem?_eq_getElem (by omega)] at hb2
        exact Option.some.inj hb2
      have hunf : ∀ (x : Res (Option ChainIter)), x = chainAdvanceLoop t ⟨idx, h, i0⟩ fuel ((i0 + (d + 1)) % t.nb) →
          chainAdvanceLoop t ⟨idx, h, i0⟩ (fuel + 1) ((i0 + d) % t.nb) =
            if hmatch h b then .ok (some ⟨(i0 + (d + 1)) % t.nb, h, i0⟩) else x := by
        intro x hx
        conv => lhs; unfold chainAdvanceLoop
        simp only
        rw [nextIdx_add (by omega), if_neg hne, hb]
        rcases b with ⟨bh, s⟩
        cases s <;> simp [hmatch, hx]
      rw [hunf _ rfl]
      by_cases hm : hmatch h b = true
      · right
        refine ⟨d + 1, by omega, by omega, by rw [if_pos hm], ?_⟩
        rw [hdrop, List.countP_cons_of_pos hm]; omega
      · rcases ih (d + 1) (by omega) (by omega) with ⟨h1, h2⟩ | ⟨d', h1, h2, h3, h4⟩
        · left
          exact ⟨by rw [if_neg hm]; exact h1, by rw [hdrop, List.countP_cons_of_neg hm]; exact h2⟩
        · right
          exact ⟨d', by omega, h2, by rw [if_neg hm]; exact h3, by rw [hdrop, List.countP_cons_of_neg hm]; exact h4⟩

theorem countLoop_spec {t : Table E} (hl : t.buckets.length = t.nb) {h : UInt32} {i0 : Nat} (hi0 : i0 < t.nb) :
    ∀ (fuel d : Nat), d < t.nb → t.nb - d ≤ fuel →
      countLoop t fuel (some ⟨(i0 + d) % t.nb, h, i0⟩) =
        .ok (1 + ((t.buckets.rotate i0).drop (d + 1)).countP (hmatch h)) := by
  intro fuel
  induction fuel with
  | zero => intro d hd hf; omega
  | succ fuel ih =>
    intro d hd hf
    unfold countLoop
    simp only
    rcases chainAdvance_spec hl (h := h) hi0 ((i0 + d) % t.nb) (t.nb + 1) d hd (by omega) with ⟨h1, h2⟩ | ⟨d', h1, h2, h3, h4⟩
    · rw [h1, h2]
      simp only [Res.ok_bind]
      cases fuel <;> rfl
    · rw [h3]
      simp only [Res.ok_bind]
      rw [ih d' h2 (by omega), h4]
      simp only [Res.ok_bind]
      congr 1; omega

theorem countP_hmatch {hash : K → UInt32} {keyOf : E → Option K} (hv : UInt32) : ∀ (bs : List (Bucket E)),
    (∀ b ∈ bs, ∀ e, b.slot = .full e → ∃ k, keyOf e = some k ∧ b.hash = hash k) →
    bs.countP (hmatch hv) = (ents bs).countP (fun e => match keyOf e with | some k => decide (hash k = hv) | none => false) := by
  intro bs
  induction bs with
  | nil => intro _; rfl
  | cons b bs ih =>
    intro hk
    have h2 := ih (fun b hb => hk b (List.mem_cons_of_mem _ hb))
    rcases b with ⟨bh, s⟩
    cases s with
    | empty => rw [ents_empty, ← h2, List.countP_cons_of_neg (by simp [hmatch])]
    | tomb => rw [ents_tomb, ← h2, List.countP_cons_of_neg (by simp [hmatch])]
    | full e =>
      rw [ents_full, List.countP_cons, List.countP_cons, h2]
      obtain ⟨k, hk1, hk2⟩ := hk ⟨bh, .full e⟩ List.mem_cons_self e rfl
      congr 1
      simp only at hk2
      subst hk2
      simp [hmatch, hk1, eq_comm]

/-- `count` of a stored key: the number of entries whose key has the same hash value. -/
theorem count_present {hash : K → UInt32} {keyOf : E → Option K} {t : Table E} (W : WF hash keyOf t) {k : K} {e : E}
    (he : e ∈ t.entries) (hk : keyOf e = some k) :
    count hash keyOf t k =
      .ok (t.entries.countP (fun e => match keyOf e with | some k' => decide (hash k' = hash k) | none => false)) := by
  have hl := W.len
  have hpos : 0 < t.nb := by have := W.room; omega
  obtain ⟨i, b, hi, hs⟩ := mem_ents.mp he
  have hil := lt_of_get hi
  obtain ⟨k', hk', hbh⟩ := W.lay.hashOk b (List.mem_of_getElem? hi) e hs
  rw [hk] at hk'
  have := Option.some.inj hk'
  subst this
  obtain ⟨d, hd, hid, hpath⟩ := W.lay.reach i b e hi hs
  rw [hbh, Nat.mod_add_mod] at hid
  rw [hl] at hd hid
  have hbegin : chainBegin hash keyOf t k = .ok (some ⟨i, hash k, i⟩) := by
    unfold chainBegin
    rw [if_neg (by omega), show t.nb + 1 = (t.nb - d) + 1 + d by omega,
      chainBegin_skip W.lay.live hl (hash k).toNat d _ hd ?_, ← hid]
    · unfold chainBeginLoop
      simp only [hi, hs]
      rw [if_pos hbh.symm]
      simp [hk]
    · intro d' hd' b' hb' hst
      obtain ⟨b2, hb2, hne⟩ := hpath d' hd'
      rw [hbh, Nat.mod_add_mod, hl, hb'] at hb2
      have := Option.some.inj hb2
      subst this
      rcases hst with ⟨h1, _⟩ | ⟨e', h1, _, h3⟩
      · exact hne h1
      · have := W.lay.index_inj hi hs hb' h1 (by rw [hk, h3])
        rw [hid] at this
        -- distinct distances below nb give distinct buckets
        have h5 := add_mod_ne (n := t.nb) (s := (hash k).toNat + d') (d := d - d') (by omega) (by omega)
        rw [show (hash k).toNat + d' + (d - d') = (hash k).toNat + d by omega] at h5
        exact h5 this
  unfold count
  rw [hbegin]
  simp only [Res.ok_bind]
  have hi0 : i < t.nb := by omega
  have hc := countLoop_spec hl (h := hash k) hi0 (t.nb + 1) 0 hpos (by omega)
  rw [Nat.add_zero i, Nat.mod_eq_of_lt hi0] at hc
  rw [hc]
  congr 1
  have hm : hmatch (hash k) b = true := by simp [hmatch, hs, hbh]
  have hhead : t.buckets.rotate i = b :: (t.buckets.rotate i).drop (0 + 1) := by
    have h1 : 0 < (t.buckets.rotate i).length := by rw [List.length_rotate]; omega
    have h2 := List.drop_eq_getElem_cons h1
    rw [List.drop_zero] at h2
    rw [h2]
    congr 1
    have h3 : (t.buckets.rotate i)[0]? = some b := by
      rw [rot_get hl hpos, Nat.add_zero, Nat.mod_eq_of_lt hi0]; exact hi
    rw [List.getElem?_eq_getElem h1] at h3
    exact Option.some.inj h3
  have h4 : (t.buckets.rotate i).countP (hmatch (hash k)) = t.buckets.countP (hmatch (hash k)) :=
    (List.rotate_perm _ _).countP_eq _
  rw [entries_eq, ← countP_hmatch (hash k) t.buckets W.lay.hashOk, ← h4, hhead, List.countP_cons_of_pos hm]
  simp only [List.drop_succ_cons, List.drop_zero]
  omega

/-- `count` of an absent key with nonzero hash value: 0. -/
theorem count_absent {hash : K → UInt32} {keyOf : E → Option K} {t : Table E} (W : WF hash keyOf t) (z : EZ t.buckets) {k : K}
    (hno : ∀ e ∈ t.entries, keyOf e ≠ some k) (hk : hash k ≠ 0) : count hash keyOf t k = .ok 0 := by
  have hl := W.len
  have hpos : 0 < t.nb := by have := W.room; omega
  unfold count chainBegin
  rw [if_neg (by omega), chainBegin_none W.lay.live hl _ hpos ?_]
  · simp only [Res.ok_bind]; rfl
  · intro b hb hst
    obtain ⟨i, hi⟩ := List.mem_iff_getElem?.mp hb
    rcases hst with ⟨h1, h2⟩ | ⟨e', h1, _, h3⟩
    · exact hk (by rw [h2]; exact z i b hi h1)
    · exact hno e' (mem_ents.mpr ⟨i, b, hi, h1⟩) h3

/-- `begin` of an absent key whose hash value is 0: null dereference. -/
theorem chainBegin_absent_zero {hash : K → UInt32} {keyOf : E → Option K} {t : Table E} (W : WF hash keyOf t) (z : EZ t.buckets) {k : K}
    (hno : ∀ e ∈ t.entries, keyOf e ≠ some k) (hk : hash k = 0) : chainBegin hash keyOf t k = .ub .nullDeref := by
  have hl := W.len
  have hroom := W.room
  have hpos : 0 < t.nb := by omega
  have h1 := W.ne_eq
  have h2 := W.nt_eq
  rw [entries_eq] at h1
  rw [tombs_eq] at h2
  obtain ⟨i, b, hb, he⟩ := exists_empty (bs := t.buckets) (by omega)
  have hi0 := lt_of_get hb
  obtain ⟨d0, hd0, hd0i⟩ := dist_exists (s := (hash k).toNat) (n := t.nb) (i := i) (by omega)
  obtain ⟨d, ⟨b', hb', hs'⟩, hmin⟩ := first_stop
    (P := fun d => ∃ b, t.buckets[((hash k).toNat + d) % t.nb]? = some b ∧ CStop keyOf (hash k) k b)
    ⟨d0, b, by rw [hd0i]; exact hb, Or.inl ⟨he, by rw [hk, z i b hb he]⟩⟩
  have hd : d < t.nb := by
    rcases Nat.lt_or_ge d0 d with h3 | h3
    · exact absurd ⟨b, by rw [hd0i]; exact hb, Or.inl ⟨he, by rw [hk, z i b hb he]⟩⟩ (hmin d0 h3)
    · omega
  unfold chainBegin
  rw [if_neg (by omega), show t.nb + 1 = (t.nb - d) + 1 + d by omega,
    chainBegin_skip W.lay.live hl (hash k).toNat d _ hd (fun d' hd' b hb hst => hmin d' hd' ⟨b, hb, hst⟩)]
  rcases hs' with ⟨h3, h4⟩ | ⟨e', h3, _, h5⟩
  · unfold chainBeginLoop
    simp only [hb', h3]
    rw [if_pos h4]
  · exact absurd h5 (hno e' (mem_ents.mpr ⟨_, b', hb', h3⟩))

/-- `count` of an absent key whose hash value is 0: null dereference. -/
theorem count_absent_zero {hash : K → UInt32} {keyOf : E → Option K} {t : Table E} (W : WF hash keyOf t) (z : EZ t.buckets) {k : K}
    (hno : ∀ e ∈ t.entries, keyOf e ≠ some k) (hk : hash k = 0) : count hash keyOf t k = .ub .nullDeref := by
  unfold count
  rw [chainBegin_absent_zero W z hno hk]
  rfl

/-! ### explicit rehash -/

theorem placeLoop_full {bs : List (Bucket E)} {n : Nat} (hl : bs.length = n) (h0 : emp bs = 0) :
    ∀ (fuel i : Nat), i < n → placeLoop bs n fuel i = .diverge := by
  intro fuel
  induction fuel with
  | zero => intro i _; rfl
  | succ fuel ih =>
    intro i hi
    obtain ⟨b, hb⟩ := get_of_lt (bs := bs) (i := i) (by omega)
    have hne : b.slot ≠ .empty := by
      intro he
      rw [List.countP_eq_zero] at h0
      exact h0 b (List.mem_of_getElem? hb) (by simp [isEmpty, he])
    have hn : nextIdx n i < n := by rw [nextIdx_eq hi]; exact Nat.mod_lt _ (by omega)
    unfold placeLoop
    simp only [hb]
    cases hs : b.slot with
    | empty => exact absurd hs hne
    | tomb => exact ih _ hn
    | full e => exact ih _ hn

theorem rehashInto_diverge {n : Nat} (hn : 0 < n) : ∀ (bs acc : List (Bucket E)), acc.length = n →
    tmb acc = 0 → emp acc < (ents bs).length → rehashInto n bs acc = .diverge := by
  intro bs
  induction bs with
  | nil => intro acc _ _ h; simp at h
  | cons b bs ih =>
    intro acc hl ht hlt
    rcases b with ⟨bh, s⟩
    cases s with
    | empty => rw [ents_empty] at hlt; exact ih acc hl ht hlt
    | tomb => rw [ents_tomb] at hlt; exact ih acc hl ht hlt
    | full e =>
      rw [ents_full, List.length_cons] at hlt
      unfold rehashInto
      simp only
      rw [if_neg (by omega)]
      by_cases h0 : emp acc = 0
      · rw [placeLoop_full hl h0 _ _ (Nat.mod_lt _ hn)]; rfl
      · have hc := count_total acc
        obtain ⟨j, b, h1, h2, h3, h4⟩ := placeLoop_spec (bs := acc) (by omega) bh.toNat
        rw [hl] at h4
        rw [h4]
        simp only [Res.ok_bind]
        have e1 := ents_set (b' := ⟨bh, .full e⟩) h1
        have e2 := tmb_set (b' := ⟨bh, .full e⟩) h1
        have e3 := count_total (acc.set j ⟨bh, .full e⟩)
        have e4 := e1.length_eq
        rw [List.length_set] at e3
        simp only [List.length_append, slotEntry, isTomb, h2] at e4 e2
        simp at e4 e2
        refine ih _ (by rw [List.length_set]; exact hl) (by omega) (by simp only [ents, tmb, emp] at *; omega)

theorem rehashInto_zero : ∀ (bs acc : List (Bucket E)), ents bs ≠ [] → rehashInto 0 bs acc = .ub .divZero := by
  intro bs
  induction bs with
  | nil => intro acc h; exact absurd rfl h
  | cons b bs ih =>
    intro acc h
    rcases b with ⟨bh, s⟩
    cases s with
    | empty => rw [ents_empty] at h; exact ih acc h
    | tomb => rw [ents_tomb] at h; exact ih acc h
    | full e => simp [rehashInto]

theorem rehashInto_none : ∀ (n : Nat) (bs acc : List (Bucket E)), ents bs = [] → rehashInto n bs acc = .ok acc := by
  intro n bs
  induction bs with
  | nil => intro acc h; rfl
  | cons b bs ih =>
    intro acc h
    rcases b with ⟨bh, s⟩
    cases s with
    | empty => rw [ents_empty] at h; exact ih acc h
    | tomb => rw [ents_tomb] at h; exact ih acc h
    | full e => rw [ents_full] at h; cases h

theorem good_len {hash : K → UInt32} {keyOf : E → Option K} {t : Table E} (G : Good hash keyOf t) : t.buckets.length = t.nb := by
  rcases G with rfl | W
  · rfl
  · exact W.len

theorem emp_replicate (n : Nat) : emp (List.replicate n (Bucket.zero : Bucket E)) = n := by
  simp [emp, List.countP_replicate, Bucket.zero, isEmpty]

/-- a new size below the number of entries: endless loop -/
theorem doRehash_diverge {hash : K → UInt32} {keyOf : E → Option K} {t : Table E} (G : Good hash keyOf t) {n : Nat}
    (h0 : 0 < n) (hn : n < t.ne) : doRehash t n = .diverge := by
  have hl := good_len G
  unfold doRehash
  rw [if_neg (by omega), ← hl, List.take_length,
    rehashInto_diverge h0 _ _ (by simp) (tmb_replicate n) (by rw [emp_replicate, ← entries_eq, ← G.ne_eq]; exact hn)]
  rfl

theorem doRehash_zero {hash : K → UInt32} {keyOf : E → Option K} {t : Table E} (G : Good hash keyOf t)
    (hn : 0 < t.ne) : doRehash t 0 = .ub .divZero := by
  have hl := good_len G
  unfold doRehash
  rw [if_neg (by omega), ← hl, List.take_length, rehashInto_zero]
  · rfl
  · rw [← entries_eq]; intro he; rw [G.ne_eq, he] at hn; simp at hn

theorem doRehash_zero_none {hash : K → UInt32} {keyOf : E → Option K} {t : Table E} (G : Good hash keyOf t)
    (hn : t.ne = 0) : doRehash t 0 = .ok ⟨true, [], 0, 0, 0⟩ := by
  have hl := good_len G
  unfold doRehash
  rw [if_neg (by omega), ← hl, List.take_length, rehashInto_none]
  · simp [hn]
  · rw [← entries_eq, ← List.length_eq_zero_iff, ← G.ne_eq]; exact hn

/-- a table without array slots answers nothing -/
theorem zombie_find {hash : K → UInt32} {keyOf : E → Option K} {t : Table E} (hi : t.init = true) (h0 : t.nb = 0) (k : K) :
    findE hash keyOf t k = .ub .divZero := by
  simp [findE, findKey, hi, h0]

theorem zombie_insert {hash : K → UInt32} {keyOf : E → Option K} {t : Table E} (hi : t.init = true) (h0 : t.nb = 0) (k : K) (mk : E) :
    insertE hash keyOf t k mk = .ub .divZero := by
  simp [insertE, lookupBucketFor, hi, h0]

theorem zombie_erase {hash : K → UInt32} {keyOf : E → Option K} {t : Table E} (hi : t.init = true) (h0 : t.nb = 0) (k : K) :
    eraseE hash keyOf t k = .ub .divZero := by
  simp [eraseE, findKey, hi, h0]

/-- in a completely full array the search for an absent key does not end -/
theorem find_full {hash : K → UInt32} {keyOf : E → Option K} {t : Table E} (hi : t.init = true) (hl : t.buckets.length = t.nb)
    (L : Layout hash keyOf t.buckets) (hfull : t.nb ≤ t.entries.length) (hpos : 0 < t.nb) {k : K}
    (hno : ∀ e ∈ t.entries, keyOf e ≠ some k) : findE hash keyOf t k = .diverge := by
  have hns : ∀ b ∈ t.buckets, ¬ Stop keyOf (hash k) k b := by
    intro b hb hst
    obtain ⟨i, hi⟩ := List.mem_iff_getElem?.mp hb
    rcases hst with h1 | ⟨e, h1, _, h2⟩
    · have hc := count_total t.buckets
      rw [entries_eq] at hfull
      have : emp t.buckets = 0 := by simp only [emp, ents, tmb] at *; omega
      rw [emp, List.countP_eq_zero] at this
      exact this b hb (by simp [isEmpty, h1])
    · exact hno e (mem_ents.mpr ⟨i, b, hi, h1⟩) h2
  have := findLoop_skip (h := hash k) (k := k) L.live (by omega) (hash k).toNat (t.nb + 1) 0
    (fun d' _ b hb => hns b (List.mem_of_getElem? hb))
  rw [Nat.zero_add, hl] at this
  unfold findE findKey
  rw [if_neg (by simp [hi]), if_neg (by omega), this]
  rfl

/-! ### adequacy: `diverge` really means that no number of iterations suffices -/

theorem lookupLoop_nostop {keyOf : E → Option K} {bs : List (Bucket E)} {n : Nat} {h : UInt32} {k : K}
    (live : ∀ e ∈ ents bs, ∃ k, keyOf e = some k) (hl : bs.length = n) (hns : ∀ b ∈ bs, ¬ Stop keyOf h k b) :
    ∀ (fuel i : Nat) (ft : Option Nat), i < n → lookupLoop keyOf bs n h k fuel i ft = .diverge := by
  intro fuel
  induction fuel with
  | zero => intro i ft _; rfl
  | succ fuel ih =>
    intro i ft hi
    obtain ⟨b, hb⟩ := get_of_lt (bs := bs) (i := i) (by omega)
    have hst := hns b (List.mem_of_getElem? hb)
    have hn : nextIdx n i < n := by rw [nextIdx_eq hi]; exact Nat.mod_lt _ (by omega)
    unfold lookupLoop
    simp only [hb]
    rcases b with ⟨bh, s⟩
    cases s with
    | empty => exact absurd (Or.inl rfl) hst
    | tomb => exact ih _ _ hn
    | full e =>
      simp only
      obtain ⟨k', hk'⟩ := live e (mem_ents.mpr ⟨i, _, hb, rfl⟩)
      by_cases he : bh = h
      · rw [if_pos he, hk']
        simp only
        rw [if_neg (by rintro rfl; exact hst (Or.inr ⟨e, rfl, he, hk'⟩))]
        exact ih _ _ hn
      · rw [if_neg he]; exact ih _ _ hn

end HashTable
end Eni

namespace Eni
open Spec
namespace HashTable
open Table
variable {E K V : Type} [DecidableEq K]

/-- adequacy of the bound in `doRehash` -/
theorem placeLoop_diverge_all {bs : List (Bucket E)} {n s : Nat} (hl : bs.length = n) (hn : 0 < n)
    (hd : placeLoop bs n (n + 1) (s % n) = .diverge) (fuel : Nat) : placeLoop bs n fuel (s % n) = .diverge := by
  by_cases h0 : emp bs = 0
  · exact placeLoop_full hl h0 fuel _ (Nat.mod_lt _ hn)
  · have hc := count_total bs
    obtain ⟨j, b, h1, h2, h3, h4⟩ := placeLoop_spec (bs := bs) (by omega) s
    rw [hl] at h4
    rw [h4] at hd
    cases hd

/-- adequacy of the bound in `lookupBucketFor` -/
theorem lookupLoop_diverge_all {keyOf : E → Option K} {bs : List (Bucket E)} {n s : Nat} {h : UInt32} {k : K}
    (live : ∀ e ∈ ents bs, ∃ k, keyOf e = some k) (hl : bs.length = n) (hn : 0 < n)
    (hd : lookupLoop keyOf bs n h k (n + 1) (s % n) none = .diverge) (fuel : Nat) :
    lookupLoop keyOf bs n h k fuel (s % n) none = .diverge := by
  by_cases hex : ∃ b ∈ bs, Stop keyOf h k b
  · exfalso
    subst hl
    obtain ⟨b, hb, hst⟩ := hex
    obtain ⟨i, hi⟩ := List.mem_iff_getElem?.mp hb
    obtain ⟨d0, hd0, hd0i⟩ := dist_exists (s := s) (lt_of_get hi)
    obtain ⟨d, ⟨b', hb', hs'⟩, hmin⟩ := first_stop (P := fun d => ∃ b, bs[(s + d) % bs.length]? = some b ∧ Stop keyOf h k b)
      ⟨d0, b, by rw [hd0i]; exact hi, hst⟩
    have hdl : d < bs.length := by
      rcases Nat.lt_or_ge d0 d with h3 | h3
      · exact absurd ⟨b, by rw [hd0i]; exact hi, hst⟩ (hmin d0 h3)
      · omega
    obtain ⟨ft, h1, _⟩ := lookupLoop_skip live hn s d (bs.length - d + 1) (fun d' hd' b hb hst => hmin d' hd' ⟨b, hb, hst⟩)
    rw [show bs.length - d + 1 + d = bs.length + 1 by omega, hd] at h1
    unfold lookupLoop at h1
    simp only [hb'] at h1
    rcases hs' with h2 | ⟨e, h2, h3, h4⟩
    · rw [h2] at h1
      simp only at h1
      cases ft with
      | none => cases h1
      | some j =>
        simp only at h1
        split at h1
        · split at h1 <;> cases h1
        · cases h1
    · rw [h2] at h1
      simp [h3, h4] at h1
  · exact lookupLoop_nostop live hl (fun b hb hst => hex ⟨b, hb, hst⟩) fuel _ none (Nat.mod_lt _ hn)

/-- in a completely full array the insertion of an absent key does not end -/
theorem insert_full {hash : K → UInt32} {keyOf : E → Option K} {t : Table E} (hi : t.init = true) (hl : t.buckets.length = t.nb)
    (L : Layout hash keyOf t.buckets) (hfull : t.nb ≤ t.entries.length) (hpos : 0 < t.nb) {k : K}
    (hno : ∀ e ∈ t.entries, keyOf e ≠ some k) (mk : E) : insertE hash keyOf t k mk = .diverge := by
  have hns : ∀ b ∈ t.buckets, ¬ Stop keyOf (hash k) k b := by
    intro b hb hst
    obtain ⟨i, hi⟩ := List.mem_iff_getElem?.mp hb
    rcases hst with h1 | ⟨e, h1, _, h2⟩
    · have hc := count_total t.buckets
      rw [entries_eq] at hfull
      have : emp t.buckets = 0 := by simp only [emp, ents, tmb] at *; omega
      rw [emp, List.countP_eq_zero] at this
      exact this b hb (by simp [isEmpty, h1])
    · exact hno e (mem_ents.mpr ⟨i, b, hi, h1⟩) h2
  unfold insertE lookupBucketFor
  simp only [hi]
  simp only [Bool.true_eq_false, if_false]
  rw [if_neg (by omega), lookupLoop_nostop L.live hl hns _ _ _ (Nat.mod_lt _ hpos)]
  rfl

end HashTable
end Eni
